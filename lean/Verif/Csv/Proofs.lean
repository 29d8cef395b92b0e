import Verif.Csv.Text

/-! # Storing sets and rows -/

namespace Verif.Csv

open RowJson (IKind FKind dec decInt dec6 digit)

attribute [local irreducible] String.toList RowJson.dec6

/-! ## The lines of a set -/

/-- The fields of a metric in a line. -/
def metricText (cfg : Cfg) (i : Nat) (m : Metric) : List Char :=
  match m.val with
  | .prim p => primText cfg m.udata p
  | .recType => []
  | .list es =>
    match es[i]? with
    | some e => primText cfg m.udata (.int .u64 i) ++ entText cfg m.udata e
    | none => []

def firstLen (ms : List Metric) : Option Nat := ms.findSome? fun m => m.val.len

/-- There is no list. -/
def NoList (ms : List Metric) : Prop := ∀ m ∈ ms, m.val.len = none

theorem pass_noList (cfg : Cfg) (n lidx i : Nat) : ∀ (ms : List Metric) (p : Pass), NoList ms →
    passMetrics cfg n lidx ms p =
      some { p with text := p.text ++ (ms.map (metricText cfg i)).flatten }
  | [], p, _ => by simp [passMetrics]
  | m :: ms, p, h => by
    have hm := h m (by simp)
    have ht : NoList ms := fun x hx => h x (by simp [hx])
    rw [passMetrics]
    cases hv : m.val with
    | recType => simp only; rw [pass_noList cfg n lidx i ms p ht]; simp [metricText, hv]
    | prim v => simp only; rw [pass_noList cfg n lidx i ms _ ht]; simp [metricText, hv]
    | list es => rw [hv] at hm; simp [MVal.len] at hm

/-- There is one list, of `k` entries. -/
inductive OneList (k : Nat) : List Metric → Prop
  | here {m : Metric} {ms : List Metric} : m.val.len = some k → NoList ms → OneList k (m :: ms)
  | there {m : Metric} {ms : List Metric} : m.val.len = none → OneList k ms → OneList k (m :: ms)

theorem pass_oneList (cfg : Cfg) {k i : Nat} (hi : i < k) : ∀ (ms : List Metric) (p : Pass),
    OneList k ms → nextIdx p.idx = i →
    passMetrics cfg 1 0 ms p =
      some { text := p.text ++ (ms.map (metricText cfg i)).flatten, idx := some i,
             done := if i + 1 = k then p.done + 1 else p.done } := by
  intro ms p h
  induction h generalizing p with
  | @here m ms hm hn =>
    intro hp
    rw [passMetrics]
    cases hv : m.val with
    | recType => rw [hv] at hm; simp [MVal.len] at hm
    | prim v => rw [hv] at hm; simp [MVal.len] at hm
    | list es =>
      rw [hv] at hm
      have hk : es.length = k := by simpa [MVal.len] using hm
      cases es with
      | nil => simp at hk; omega
      | cons e es =>
        have hne : ¬ i = (e :: es).length := by omega
        have hg : (e :: es)[i]? = some ((e :: es).getD i e) := by
          rw [List.getD_eq_getElem?_getD, List.getElem?_eq_getElem (by omega)]; rfl
        simp only [hp, if_neg hne, if_neg (show ¬ (1 ≤ 0) by omega)]
        rw [pass_noList cfg 1 1 i ms _ hn]
        simp only [List.map_cons, List.flatten_cons, metricText, hv, hg, List.append_assoc, hk]
  | @there m ms hm _ ih =>
    intro hp
    rw [passMetrics]
    cases hv : m.val with
    | recType => simp only; rw [ih p hp]; simp [metricText, hv]
    | prim v =>
      refine (ih { p with text := p.text ++ primText cfg m.udata v } hp).trans ?_
      simp [metricText, hv]
    | list es => rw [hv] at hm; simp [MVal.len] at hm

/-- A line without its end. -/
def lineText (cfg : Cfg) (s : Snap) (i : Nat) : List Char :=
  timeJobApp cfg s ++ (s.metrics.map (metricText cfg i)).flatten

theorem passes_noList (cfg : Cfg) (s : Snap) (h : NoList s.metrics) (fuel : Nat) :
    passes cfg 0 s (fuel + 1) [] none 0 = .ok (lineText cfg s 0 ++ ['\n']) := by
  rw [passes, pass_noList cfg 0 0 0 _ _ h]
  simp [lineText]

theorem passes_oneList (cfg : Cfg) (s : Snap) {k : Nat} (h : OneList k s.metrics) :
    ∀ (fuel i : Nat) (text : List Char) (idx : Option Nat), nextIdx idx = i → i < k → k - i ≤ fuel →
    passes cfg 1 s fuel text idx 0 =
      .ok (text ++ ((List.range' i (k - i)).map fun j => lineText cfg s j ++ ['\n']).flatten)
  | 0, i, _, _, _, h1, h2 => by omega
  | fuel + 1, i, text, idx, hi, h1, h2 => by
    rw [passes, pass_oneList cfg h1 _ _ h hi]
    by_cases hk : i + 1 = k
    · have e : k - i = 1 := by omega
      simp [hk, e, lineText]
    · have e : k - i = (k - (i + 1)) + 1 := by omega
      simp only [if_neg hk, show (0 : Nat) < 1 by omega, if_true]
      rw [passes_oneList cfg s h fuel (i + 1) _ (some i) rfl (by omega) (by omega)]
      rw [e, List.range'_succ]
      simp [lineText]

theorem oneList_firstLen {k : Nat} {ms : List Metric} (h : OneList k ms) : firstLen ms = some k := by
  induction h with
  | here hm _ => simp [firstLen, hm]
  | there hm _ ih =>
    unfold firstLen at *
    rw [List.findSome?_cons, hm]
    exact ih

theorem noList_firstLen {ms : List Metric} (h : NoList ms) : firstLen ms = none := by
  unfold firstLen
  rw [List.findSome?_eq_none_iff]
  exact fun m hm => h m hm

theorem oneList_entries {k : Nat} {s : Snap} (h : OneList k s.metrics) : k ≤ entries s := by
  unfold entries
  generalize s.metrics = ms at h
  induction h with
  | @here m ms hm _ =>
    cases hv : m.val with
    | list es =>
      rw [hv] at hm
      have : es.length = k := by simpa [MVal.len] using hm
      simp [hv]; omega
    | prim p => rw [hv] at hm; simp [MVal.len] at hm
    | recType => rw [hv] at hm; simp [MVal.len] at hm
  | there _ _ ih => simp only [List.map_cons, List.sum_cons]; omega

/-- One for a list. -/
def MVal.lists : MVal → Nat
  | .list _ => 1
  | _ => 0

/-- The lists of a set that is written. -/
def listsOf (ms : List Metric) : Nat := (ms.map fun m => m.val.lists).sum

theorem listsOf_cases : ∀ (ms : List Metric), listsOf ms ≤ 1 →
    (listsOf ms = 0 ∧ NoList ms) ∨ (listsOf ms = 1 ∧ ∃ k, OneList k ms)
  | [], _ => .inl ⟨rfl, by intro m hm; simp at hm⟩
  | m :: ms, h => by
    have e : listsOf (m :: ms) = m.val.lists + listsOf ms := by
      simp [listsOf]
    cases hv : m.val with
    | list es =>
      rw [hv] at e
      simp only [MVal.lists] at e
      have h0 : listsOf ms = 0 := by omega
      rcases listsOf_cases ms (by omega) with ⟨_, hn⟩ | ⟨h1, _⟩
      · refine .inr ⟨by omega, es.length, .here (by simp [hv, MVal.len]) hn⟩
      · omega
    | prim p =>
      rw [hv] at e
      simp only [MVal.lists, Nat.zero_add] at e
      rw [e] at h ⊢
      rcases listsOf_cases ms h with ⟨h0, hn⟩ | ⟨h1, k, hk⟩
      · refine .inl ⟨h0, ?_⟩
        intro x hx
        rcases List.mem_cons.mp hx with rfl | hx
        · simp [hv, MVal.len]
        · exact hn x hx
      · exact .inr ⟨h1, k, .there (by simp [hv, MVal.len]) hk⟩
    | recType =>
      rw [hv] at e
      simp only [MVal.lists, Nat.zero_add] at e
      rw [e] at h ⊢
      rcases listsOf_cases ms h with ⟨h0, hn⟩ | ⟨h1, k, hk⟩
      · refine .inl ⟨h0, ?_⟩
        intro x hx
        rcases List.mem_cons.mp hx with rfl | hx
        · simp [hv, MVal.len]
        · exact hn x hx
      · exact .inr ⟨h1, k, .there (by simp [hv, MVal.len]) hk⟩

theorem oneList_pos {k : Nat} {ms : List Metric} (h : OneList k ms)
    (hp : ∀ m ∈ ms, m.val.len ≠ some 0) : 0 < k := by
  induction h with
  | here hm _ =>
    rcases Nat.eq_zero_or_pos k with rfl | h
    · exact absurd hm (hp _ (by simp))
    · exact h
  | there _ _ ih => exact ih fun m hm => hp m (by simp [hm])

/-- What is written for a set without empty lists. -/
theorem setLines_ok (cfg : Cfg) {s : Snap} (h1 : listsOf s.metrics ≤ 1)
    (h2 : ∀ m ∈ s.metrics, m.val.len ≠ some 0) :
    setLines cfg (listsOf s.metrics) s =
      .ok ((List.range (lineCount s)).map fun j => lineText cfg s j ++ ['\n']).flatten := by
  unfold setLines
  rcases listsOf_cases _ h1 with ⟨e, hn⟩ | ⟨e, k, hk⟩
  · rw [e, passes_noList cfg s hn]
    have : lineCount s = 1 := by
      have := noList_firstLen hn
      unfold firstLen at this
      simp [lineCount, this]
    simp [this]
  · have hp := oneList_pos hk h2
    have hc : lineCount s = k := by
      have := oneList_firstLen hk
      unfold firstLen at this
      simp [lineCount, this]
    have := oneList_entries hk
    rw [e, passes_oneList cfg s hk _ 0 [] none rfl hp (by omega), hc, List.range_eq_range']
    simp

/-! ## Schemas -/

theorem match_length {α β : Type} {R : α → β → Prop} : ∀ {l : List α} {l' : List β},
    Match R l l' → l.length = l'.length
  | [], [], _ => rfl
  | [], _ :: _, h => nomatch h
  | _ :: _, [], h => nomatch h
  | _ :: _, _ :: _, h => by simp [match_length h.2]

theorem match_mem {α β : Type} {R : α → β → Prop} : ∀ {l : List α} {l' : List β},
    Match R l l' → ∀ a ∈ l, ∃ b ∈ l', R a b
  | [], [], _, a, ha => by simp at ha
  | [], _ :: _, h, _, _ => nomatch h
  | _ :: _, [], h, _, _ => nomatch h
  | x :: l, y :: l', h, a, ha => by
    rcases List.mem_cons.mp ha with rfl | ha
    · exact ⟨y, by simp, h.1⟩
    · obtain ⟨b, hb, hr⟩ := match_mem h.2 a ha
      exact ⟨b, by simp [hb], hr⟩

theorem metricFits_len {cfg : Cfg} {m : Metric} {t : List Char × MType} (h : MetricFits cfg m t) :
    m.val.lists = t.2.lists ∧
    m.val.len ≠ some 0 := by
  obtain ⟨_, _, h⟩ := h
  cases hv : m.val <;> cases ht : t.2 <;> rw [hv, ht] at h <;> simp only at h
  · exact ⟨rfl, by simp [MVal.len]⟩
  · exact ⟨rfl, by simp [MVal.len]⟩
  · exact ⟨rfl, by simp [MVal.len, h.1]⟩

theorem fits_lists {cfg : Cfg} : ∀ {ms : List Metric} {l : Layout}, Match (MetricFits cfg) ms l →
    listsOf ms = listsIn l
  | [], [], _ => rfl
  | [], _ :: _, h => nomatch h
  | _ :: _, [], h => nomatch h
  | m :: ms, t :: l, h => by
    have h1 := (metricFits_len h.1).1
    have h2 := fits_lists h.2
    unfold listsOf listsIn at *
    simp only [List.map_cons, List.sum_cons]
    omega

theorem fits_nonempty {cfg : Cfg} {ms : List Metric} {l : Layout} (h : Match (MetricFits cfg) ms l) :
    ∀ m ∈ ms, m.val.len ≠ some 0 := by
  intro m hm
  obtain ⟨t, _, ht⟩ := match_mem h m hm
  exact (metricFits_len ht).2

/-! ## Columns of a schema -/

/-- The names of the columns of a value. -/
def typeNames (cfg : Cfg) (n : List Char) (t : PType) : List (List Char) :=
  let one := if cfg.udata then [n ++ ".userdata".toList, n ++ ".value".toList] else [n]
  let many := ((List.range t.count).map fun j =>
    if cfg.udata then [n ++ dec j ++ ".userdata".toList, n ++ dec j ++ ".value".toList]
    else [n ++ dec j]).flatten
  match t.tag with
  | .ints _ | .flts _ => if cfg.expand then many else one
  | _ => one

theorem cell_names (cfg : Cfg) (u : Nat) (n t : List Char) :
    (cell cfg u n t).map (·.1) =
      if cfg.udata then [n ++ ".userdata".toList, n ++ ".value".toList] else [n] := by
  unfold cell; split <;> rfl

theorem many_names (cfg : Cfg) (u : Nat) (n : List Char) (l : List (List Char)) :
    ((l.zipIdx.map fun p => cell cfg u (n ++ dec p.2) p.1).flatten).map (·.1) =
      ((List.range l.length).map fun j =>
        if cfg.udata then [n ++ dec j ++ ".userdata".toList, n ++ dec j ++ ".value".toList]
        else [n ++ dec j]).flatten := by
  have e : List.range l.length = l.zipIdx.map (·.2) := by
    rw [List.range_eq_range']; simp
  rw [e, List.map_map, List.map_flatten, List.map_map]
  congr 1
  refine List.map_congr_left ?_
  intro p _
  simp only [Function.comp, cell_names]

theorem value_names (cfg : Cfg) (u : Nat) (n : List Char) {p : Prim} {t : PType} (h : p.Is t) :
    (valueCells cfg u n p).map (·.1) = typeNames cfg n t := by
  obtain ⟨h1, h2⟩ := h
  unfold typeNames
  rw [← h1, ← h2]
  cases p with
  | int k v => exact cell_names ..
  | flt k t => exact cell_names ..
  | chr c => exact cell_names ..
  | str k s => exact cell_names ..
  | ints k vs =>
    simp only [valueCells, arrayCells, Prim.tag, Prim.count]
    split
    · rw [many_names, List.length_map]
    · exact cell_names ..
  | flts k l =>
    simp only [valueCells, arrayCells, Prim.tag, Prim.count]
    split
    · rw [many_names]
    · exact cell_names ..
  | ts a b =>
    simp only [valueCells, List.map_map, Prim.tag]
    exact cell_names ..
  | other =>
    simp only [valueCells, List.map_map, Prim.tag]
    exact cell_names ..

/-- The names of the columns of an entry. -/
def entNames (cfg : Cfg) (n : List Char) : EType → List (List Char)
  | .prim t => typeNames cfg n t
  | .record ms => (ms.map fun m => typeNames cfg (n ++ '_' :: m.1) m.2).flatten

theorem members_names (cfg : Cfg) (u : Nat) (n : List Char) : ∀ {ms : List (List Char × Prim)}
    {ts : List (List Char × PType)},
    Match (fun m t => m.1 = t.1 ∧ m.2.Is t.2 ∧ PrimOk cfg m.2) ms ts →
    ((ms.map fun m => valueCells cfg u (n ++ '_' :: m.1) m.2).flatten).map (·.1) =
      (ts.map fun m => typeNames cfg (n ++ '_' :: m.1) m.2).flatten
  | [], [], _ => rfl
  | [], _ :: _, h => nomatch h
  | _ :: _, [], h => nomatch h
  | m :: ms, t :: ts, h => by
    have ih := members_names cfg u n h.2
    simp only [List.map_cons, List.flatten_cons, List.map_append, ih,
      value_names cfg u _ h.1.2.1, h.1.1]

theorem ent_names {cfg : Cfg} (u : Nat) (n : List Char) {e : Ent} {t : EType} (h : EntFits cfg e t) :
    (entCells cfg u n e).map (·.1) = entNames cfg n t := by
  cases e <;> cases t <;> simp only [EntFits] at h
  · exact value_names cfg u n h.1
  · exact members_names cfg u n h

/-- The names of the columns of a metric. -/
def mtypeNames (cfg : Cfg) (n : List Char) : MType → List (List Char)
  | .prim t => typeNames cfg n t
  | .recType => []
  | .list e =>
    (if cfg.udata then [n ++ "_entry_idx".toList ++ ".userdata".toList,
        n ++ "_entry_idx".toList ++ ".value".toList] else [n ++ "_entry_idx".toList]) ++
      entNames cfg n e

theorem metric_names {cfg : Cfg} {m : Metric} {t : List Char × MType} (h : MetricFits cfg m t)
    {i : Nat} (hi : ∀ k, m.val.len = some k → i < k) :
    (metricCells cfg i m).map (·.1) = mtypeNames cfg t.1 t.2 := by
  obtain ⟨hn, _, h⟩ := h
  unfold metricCells
  cases hv : m.val <;> cases ht : t.2 <;> rw [hv, ht] at h <;> simp only at h
  · simp only [mtypeNames, ← hn]; exact value_names cfg _ _ h.1
  · rfl
  · next es e =>
    have hi := hi es.length (by simp [hv, MVal.len])
    simp only [List.getElem?_eq_getElem hi, List.map_append, cell_names,
      ent_names _ _ (h.2.2 _ (List.getElem_mem hi)), mtypeNames, ← hn]

/-! ## The fields of a line -/

theorem tail_ent {cfg : Cfg} (u : Nat) (n : List Char) {e : Ent} {t : EType} (h : EntFits cfg e t) :
    Tail (entText cfg u e) ((entCells cfg u n e).map (·.2)) := by
  cases e with
  | prim p =>
    cases t <;> simp only [EntFits] at h
    exact tail_prim u n h.2.1
  | record ms =>
    cases t <;> simp only [EntFits] at h
    simp only [entText, entCells, List.map_flatten, List.map_map]
    refine Tail.flatten _ _ _ ?_
    intro m hm
    obtain ⟨_, _, _, _, ho⟩ := match_mem h m hm
    exact tail_prim u _ ho

theorem tail_metric {cfg : Cfg} {m : Metric} {t : List Char × MType} (h : MetricFits cfg m t)
    {i : Nat} (hi : ∀ k, m.val.len = some k → i < k) :
    Tail (metricText cfg i m) ((metricCells cfg i m).map (·.2)) := by
  obtain ⟨_, _, h⟩ := h
  unfold metricCells metricText
  cases hv : m.val <;> cases ht : t.2 <;> rw [hv, ht] at h <;> simp only at h
  · exact tail_prim _ _ h.2
  · exact Tail.nil
  · next es e =>
    have hi := hi es.length (by simp [hv, MVal.len])
    have hc : Tail (primText cfg m.udata (.int .u64 i))
        ((cell cfg m.udata (m.name ++ "_entry_idx".toList) (dec i)).map (·.2)) := by
      have hd : decInt (i : Int) = dec i := by simp [decInt]
      have := tail_cell (cfg := cfg) m.udata (m.name ++ "_entry_idx".toList) (rd_dec i)
      simpa only [primText, hd] using this
    simp only [List.getElem?_eq_getElem hi, List.map_append]
    exact hc.append (tail_ent _ _ (h.2.2 _ (List.getElem_mem hi)))

theorem line_fields {cfg : Cfg} {l : Layout} {s : Snap} (h : Fits cfg l s) {i : Nat}
    (hi : ∀ m ∈ s.metrics, ∀ k, m.val.len = some k → i < k) :
    Line (lineText cfg s i) ((timeCells cfg s.sec s.usec ++ ("ProducerName".toList, s.producer) ::
      (s.metrics.map (metricCells cfg i)).flatten).map (·.2)) := by
  obtain ⟨_, hp, hm⟩ := h
  have ht : Tail ((s.metrics.map (metricText cfg i)).flatten)
      (((s.metrics.map (metricCells cfg i)).flatten).map (·.2)) := by
    rw [List.map_flatten, List.map_map]
    refine Tail.flatten _ _ _ ?_
    intro m hmem
    obtain ⟨t, _, hf⟩ := match_mem hm m hmem
    exact tail_metric hf (hi m hmem)
  have := time_line cfg s.sec s.usec (Tail.cons (rd_plain hp) ht)
  simpa [lineText, timeJobApp] using this

theorem index_lt {cfg : Cfg} {l : Layout} {s : Snap} (h : Fits cfg l s) {i : Nat}
    (hi : i < lineCount s) : ∀ m ∈ s.metrics, ∀ k, m.val.len = some k → i < k := by
  obtain ⟨h1, _, hm⟩ := h
  rw [← fits_lists hm] at h1
  intro m hmem k hk
  rcases listsOf_cases _ h1 with ⟨_, hn⟩ | ⟨_, k', hk'⟩
  · rw [hn m hmem] at hk; exact absurd hk (by simp)
  · have hc : lineCount s = k' := by
      have := oneList_firstLen hk'
      unfold firstLen at this
      simp [lineCount, this]
    have : k = k' := by
      clear hi hc hm h1
      generalize s.metrics = ms at hk' hmem
      induction hk' with
      | here ha hn =>
        rcases List.mem_cons.mp hmem with rfl | hmem
        · rw [ha] at hk; exact (Option.some.inj hk).symm
        · rw [hn m hmem] at hk; exact absurd hk (by simp)
      | there ha _ ih =>
        rcases List.mem_cons.mp hmem with rfl | hmem
        · rw [ha] at hk; exact absurd hk (by simp)
        · exact ih hmem
    omega

/-- The lines written for a set are read as what is expected of it. -/
theorem set_reads {cfg : Cfg} {l : Layout} {s : Snap} (h : Fits cfg l s) (r : List Char) :
    readLines (((List.range (lineCount s)).map fun j => lineText cfg s j ++ ['\n']).flatten ++ r) =
      (readLines r).map (((expect cfg s).map fun line => line.map (·.2)) ++ ·) := by
  rw [readLines_all _ (lineText cfg s) (fun i => (timeCells cfg s.sec s.usec ++
    ("ProducerName".toList, s.producer) :: (s.metrics.map (metricCells cfg i)).flatten).map (·.2))]
  · unfold expect
    rw [List.map_map]
    rfl
  · intro i hi
    exact line_fields h (index_lt h (List.mem_range.mp hi))

/-- The names of all columns. -/
def layoutNames (cfg : Cfg) (l : Layout) : List (List Char) :=
  (timeCells cfg 0 0).map (·.1) ++ "ProducerName".toList ::
    (l.map fun t => mtypeNames cfg t.1 t.2).flatten

theorem timeCells_names (cfg : Cfg) (a b : Nat) :
    (timeCells cfg a b).map (·.1) = (timeCells cfg 0 0).map (·.1) := by
  unfold timeCells; split <;> simp only [List.map_cons, List.map_nil]

theorem metrics_names {cfg : Cfg} {i : Nat} : ∀ {ms : List Metric} {l : Layout},
    Match (MetricFits cfg) ms l → (∀ m ∈ ms, ∀ k, m.val.len = some k → i < k) →
    ((ms.map (metricCells cfg i)).flatten).map (·.1) =
      (l.map fun t => mtypeNames cfg t.1 t.2).flatten
  | [], [], _, _ => rfl
  | [], _ :: _, h, _ => nomatch h
  | _ :: _, [], h, _ => nomatch h
  | m :: ms, t :: l, h, hi => by
    have ih := metrics_names h.2 fun x hx => hi x (by simp [hx])
    simp only [List.map_cons, List.flatten_cons, List.map_append, ih,
      metric_names h.1 (hi m (by simp))]

theorem expect_names {cfg : Cfg} {l : Layout} {s : Snap} (h : Fits cfg l s) :
    ∀ line ∈ expect cfg s, line.map (·.1) = layoutNames cfg l := by
  intro line hl
  obtain ⟨i, hi, rfl⟩ := List.mem_map.mp hl
  have := metrics_names h.2.2 (index_lt h (List.mem_range.mp hi))
  simp only [layoutNames, List.map_append, List.map_cons, this, timeCells_names]

/-! ## The header -/

theorem tail_header_type {cfg : Cfg} {n : List Char} {p : Prim} {t : PType} (h : p.Is t)
    (hn : TextOk cfg n) : Tail (primHeader cfg n p.tag p.count [',']) (typeNames cfg n t) := by
  have := tail_header (cfg := cfg) (n := n) (p := p) 0 hn
  rwa [value_names cfg 0 n h] at this

theorem uniform_of {cfg : Cfg} {t : EType} : ∀ (e : Ent) (es : List Ent), EntFits cfg e t →
    (∀ x ∈ es, EntFits cfg x t) → uniform e es = true
  | _, [], _, _ => rfl
  | e, e' :: es, h, hs => by
    have h' := hs e' (by simp)
    have ih := uniform_of e' es h' fun x hx => hs x (by simp [hx])
    have : e.tag = e'.tag ∧ e.count = e'.count := by
      cases e <;> cases e' <;> cases t <;> simp only [EntFits] at h h'
      · exact ⟨h.1.1.trans h'.1.1.symm, h.1.2.trans h'.1.2.symm⟩
      · exact ⟨rfl, rfl⟩
    simp [uniform, this.1, this.2, ih]

theorem cut_id {n : List Char} (h : n.length ≤ 99) : cut100 n = n := List.take_of_length_le h

theorem tail_members {cfg : Cfg} {n : List Char} (hn : TextOk cfg n) :
    ∀ {ms : List (List Char × Prim)} {ts : List (List Char × PType)},
    Match (fun m t => m.1 = t.1 ∧ m.2.Is t.2 ∧ PrimOk cfg m.2) ms ts →
    (∀ t ∈ ts, n.length + 1 + t.1.length ≤ 99 ∧ TextOk cfg t.1) →
    Tail ((ms.map fun m => primHeader cfg (cut100 (n ++ '_' :: m.1)) m.2.tag m.2.count [',']).flatten)
      ((ts.map fun m => typeNames cfg (n ++ '_' :: m.1) m.2).flatten)
  | [], [], _, _ => Tail.nil
  | [], _ :: _, h, _ => nomatch h
  | _ :: _, [], h, _ => nomatch h
  | m :: ms, t :: ts, h, hl => by
    simp only [List.map_cons, List.flatten_cons]
    have ht := hl t (by simp)
    refine Tail.append ?_ (tail_members hn h.2 fun x hx => hl x (by simp [hx]))
    rw [h.1.1, cut_id (by simp; omega)]
    refine tail_header_type h.1.2.1 (textOk_append hn ?_)
    exact textOk_append (okUnder cfg) ht.2

theorem list_header {cfg : Cfg} {n : List Char} {es : List Ent} {t : EType} (hn : TextOk cfg n)
    (hne : es ≠ []) (hl : ListNamesOk cfg n t) (hs : ∀ x ∈ es, EntFits cfg x t) :
    ∃ x, listHeader cfg n [','] es = (x, true) ∧ Tail x (mtypeNames cfg n (.list t)) := by
  cases es with
  | nil => exact absurd rfl hne
  | cons e es =>
    have hu := uniform_of e es (hs e (by simp)) fun x hx => hs x (by simp [hx])
    have he := hs e (by simp)
    have hlen : n.length + 10 ≤ 99 := by cases t <;> simp only [ListNamesOk] at hl <;> omega
    have hc : cut100 (n ++ "_entry_idx".toList) = n ++ "_entry_idx".toList :=
      cut_id (by rw [List.length_append, lenIdx]; exact hlen)
    have hi : Tail (primHeader cfg (cut100 (n ++ "_entry_idx".toList)) (.int .u64) 1 [','])
        (if cfg.udata then [n ++ "_entry_idx".toList ++ ".userdata".toList,
          n ++ "_entry_idx".toList ++ ".value".toList] else [n ++ "_entry_idx".toList]) := by
      rw [hc]
      exact tail_header_type (p := .int .u64 0) (t := ⟨.int .u64, 1⟩) ⟨rfl, rfl⟩
        (textOk_append hn (okIdx cfg))
    cases e with
    | prim p =>
      cases t <;> simp only [EntFits] at he
      next t =>
      refine ⟨_, ?_, hi.append (tail_header_type he.1 hn)⟩
      rw [← hu]
      cases p <;> first | rfl | exact absurd rfl he.2.2
    | record ms =>
      cases t <;> simp only [EntFits] at he
      next ts =>
      refine ⟨_, ?_, hi.append (tail_members hn he hl.2)⟩
      rw [← hu]
      rfl

theorem metrics_header {cfg : Cfg} : ∀ {ms : List Metric} {l : Layout},
    Match (MetricFits cfg) ms l →
    ∃ x, headerCols cfg [','] (ms.map fun m => .metric m.name m.val) = (x, true) ∧
      Tail x (l.map fun t => mtypeNames cfg t.1 t.2).flatten
  | [], [], _ => ⟨_, rfl, Tail.nil⟩
  | [], _ :: _, h => nomatch h
  | _ :: _, [], h => nomatch h
  | m :: ms, t :: l, h => by
    obtain ⟨x, hx, hT⟩ := metrics_header h.2
    obtain ⟨hn, hok, hm⟩ := h.1
    simp only [List.map_cons, List.flatten_cons]
    cases hv : m.val <;> cases ht : t.2 <;> rw [hv, ht] at hm <;> simp only at hm
    · next p pt =>
      refine ⟨primHeader cfg m.name p.tag p.count [','] ++ x, by simp only [headerCols, hx], ?_⟩
      refine Tail.append ?_ hT
      rw [← hn]
      exact tail_header_type hm.1 hok
    · exact ⟨x, by simp only [headerCols, hx], by simpa [mtypeNames] using hT⟩
    · next es e =>
      obtain ⟨y, hy, hTy⟩ := list_header hok hm.1 hm.2.1 hm.2.2
      refine ⟨y ++ x, by simp only [headerCols, hx, hy, if_true], ?_⟩
      rw [← hn]
      exact hTy.append hT

/-- The header of a set is read as the names of its columns. -/
theorem header_reads {cfg : Cfg} {l : Layout} {s : Snap} (h : Fits cfg l s) :
    ∃ x, setHeader cfg s = '#' :: x ++ ['\n'] ∧ Line x (layoutNames cfg l) := by
  obtain ⟨x, hx, hT⟩ := metrics_header h.2.2
  have hp := okProducer cfg
  have hL := timeNames_line cfg 0 0 (Tail.cons (rd_wsqt hp) hT)
  refine ⟨_, ?_, hL⟩
  unfold setHeader headerText
  simp only [headerCols, hx]
  simp

/-! ## Histories -/

theorem countLists_ok : ∀ (ms : List Metric) (n : Nat), n + listsOf ms ≤ 1 →
    (∀ m ∈ ms, m.val.len ≠ some 0) → countLists n ms = (n + listsOf ms, none)
  | [], n, _, _ => rfl
  | m :: ms, n, h, hp => by
    have e : listsOf (m :: ms) = m.val.lists + listsOf ms := by
      simp [listsOf]
    have hm := hp m (by simp)
    have ih := fun k hk => countLists_ok ms k hk fun x hx => hp x (by simp [hx])
    unfold countLists
    cases hv : m.val with
    | list es =>
      rw [hv] at e hm
      simp only [MVal.lists] at e
      have hne : es ≠ [] := by
        intro h0; subst h0; simp [MVal.len] at hm
      simp only [if_neg (show ¬ (n + 1 > 1) by omega), if_neg hne]
      rw [ih (n + 1) (by omega), e]
      simp; omega
    | prim p =>
      rw [hv] at e
      simp only [MVal.lists, Nat.zero_add] at e
      simp only
      rw [ih n (by omega), e]
    | recType =>
      rw [hv] at e
      simp only [MVal.lists, Nat.zero_add] at e
      simp only
      rw [ih n (by omega), e]

/-- The lines written for a set. -/
def linesOf (cfg : Cfg) (s : Snap) : List Char :=
  ((List.range (lineCount s)).map fun j => lineText cfg s j ++ ['\n']).flatten

theorem store_first {cfg : Cfg} {l : Layout} {s : Snap} (h : Fits cfg l s) :
    store cfg s fresh =
      (.stored, { numLists := some (listsIn l), lents := true, header := false,
                  file := setHeader cfg s ++ linesOf cfg s }) := by
  have e := fits_lists h.2.2
  have h1 : listsOf s.metrics ≤ 1 := by rw [e]; exact h.1
  have hp := fits_nonempty h.2.2
  have hc := countLists_ok s.metrics 0 (by omega) hp
  rw [Nat.zero_add] at hc
  unfold store fresh
  have hs := setLines_ok cfg h1 hp
  rw [e] at hs hc
  simp only [hc, writeSet, hs, if_true, List.nil_append]
  rfl

theorem store_next {cfg : Cfg} {l : Layout} {s : Snap} (h : Fits cfg l s) (f : List Char) :
    store cfg s { numLists := some (listsIn l), lents := true, header := false, file := f } =
      (.stored, { numLists := some (listsIn l), lents := true, header := false,
                  file := f ++ linesOf cfg s }) := by
  have e := fits_lists h.2.2
  have h1 : listsOf s.metrics ≤ 1 := by rw [e]; exact h.1
  have hp := fits_nonempty h.2.2
  have hs := setLines_ok cfg h1 hp
  rw [e] at hs
  unfold store
  have : ¬ listsIn l > 1 := by have := h.1; omega
  simp only [if_neg this, Bool.not_true, Bool.and_false, writeSet, hs]
  rfl

theorem storeAll_next {cfg : Cfg} {l : Layout} : ∀ (hist : List Snap) (f : List Char),
    (∀ s ∈ hist, Fits cfg l s) →
    storeAll cfg hist { numLists := some (listsIn l), lents := true, header := false, file := f } =
      (hist.map fun _ => .stored,
        { numLists := some (listsIn l), lents := true, header := false,
          file := f ++ (hist.map (linesOf cfg)).flatten })
  | [], f, _ => by simp [storeAll]
  | s :: hist, f, h => by
    rw [storeAll, store_next (h s (by simp))]
    simp only [storeAll_next hist _ fun x hx => h x (by simp [hx])]
    simp

theorem hist_reads {cfg : Cfg} {l : Layout} : ∀ (hist : List Snap), (∀ s ∈ hist, Fits cfg l s) →
    readLines ((hist.map (linesOf cfg)).flatten) =
      some ((hist.map (expect cfg)).flatten.map fun line => line.map (·.2))
  | [], _ => rfl
  | s :: hist, h => by
    rw [List.map_cons, List.flatten_cons, linesOf, set_reads (h s (by simp)),
      hist_reads hist fun x hx => h x (by simp [hx])]
    simp

theorem zip_names {α β : Type} (l : List (α × β)) : (l.map (·.1)).zip (l.map (·.2)) = l := by
  induction l with
  | nil => rfl
  | cons p l ih => simp [ih]

theorem table_of {x y : List Char} {names : List (List Char)} {ls : List (List (List Char × List Char))}
    (hx : Line x names) (hy : readLines y = some (ls.map fun line => line.map (·.2)))
    (hn : ∀ line ∈ ls, line.map (·.1) = names) :
    readTable ('#' :: x ++ '\n' :: y) = some ls := by
  have hr : readLines (x ++ '\n' :: y) = some (names :: ls.map fun line => line.map (·.2)) := by
    rw [hx, hy]; rfl
  unfold readTable
  simp only [List.cons_append, hr]
  rw [if_pos]
  · rw [List.map_map]
    congr 1
    conv => rhs; rw [← List.map_id ls]
    refine List.map_congr_left ?_
    intro line hl
    simp only [Function.comp, ← hn line hl, zip_names, id]
  · rw [List.all_eq_true]
    intro r hr
    obtain ⟨line, hl, rfl⟩ := List.mem_map.mp hr
    simp [← hn line hl]

/-! ## Rows -/

/-- The columns of a column of a row. -/
def colCells (cfg : Cfg) (c : Col) : List (List Char × List Char) :=
  match c.val with
  | .ts sec usec => timeCells cfg sec usec
  | .str _ s => if c.phony.isSome then [(c.name, s)] else cell cfg c.udata c.name s
  | v => valueCells cfg c.udata c.name v

theorem expectRow_eq (cfg : Cfg) (row : List Col) :
    expectRow cfg row = (row.map (colCells cfg)).flatten := rfl

theorem tail_time (cfg : Cfg) (sec usec : Nat) :
    Tail (',' :: timeText cfg sec usec) ((timeCells cfg sec usec).map (·.2)) := by
  unfold timeText timeCells
  split
  · simpa using Tail.cons (rd_dec _) (Tail.one (rd_dec (usec % 1000)))
  · have hc : Clean (dec sec ++ '.' :: dec6 usec) :=
      clean_append (dec_clean _) (clean_append dotClean (dec6_clean _))
    simpa using Tail.cons (rd_plain hc) (Tail.one (rd_dec usec))

theorem lead_false {cfg : Cfg} {c : Col} (h : c.phony = none) (t : List Char) :
    colLead cfg c false ++ t = udataText cfg c.udata ++ ',' :: t := by
  unfold colLead udataText
  simp only [h, Option.isNone_none, Bool.and_true]
  split <;> simp

theorem lead_phony {cfg : Cfg} {c : Col} {p : Phony} (h : c.phony = some p) (first : Bool) :
    colLead cfg c first = if first then [] else [','] := by
  unfold colLead
  simp [h]

theorem elems_false {cfg : Cfg} {c : Col} (h : c.phony = none) (l : List (List Char)) :
    colElems cfg c false l = expanded cfg c.udata l := by
  unfold expanded
  cases l with
  | nil => rfl
  | cons t l => simp [colElems, lead_false h]

/-- A column that is not the first. -/
theorem tail_col {cfg : Cfg} (he : cfg.expand = true) {c : Col} {t : CType} (h : ColFits cfg c t) :
    ∃ x, colText cfg c false = some x ∧ Tail x ((colCells cfg c).map (·.2)) := by
  obtain ⟨_, _, _, _, ho, hp⟩ := h
  cases hph : c.phony with
  | none =>
    rw [hph] at hp
    simp only at hp
    unfold colText colCells
    cases hv : c.val with
    | int k v =>
      exact ⟨_, rfl, by rw [lead_false hph]; exact tail_cell _ _ (rd_decInt v)⟩
    | flt k t =>
      rw [hv] at ho
      exact ⟨_, rfl, by rw [lead_false hph]; exact tail_cell _ _ (rd_plain ho)⟩
    | chr d =>
      rw [hv] at ho
      exact ⟨_, rfl, by rw [lead_false hph]; exact tail_cell _ _ (rd_plain ho)⟩
    | str k s =>
      rw [hv] at ho
      refine ⟨_, rfl, ?_⟩
      rw [lead_false hph]
      simp only [hph, Option.isSome_none]
      exact tail_cell _ _ (rd_wsqt ho)
    | ints k vs =>
      refine ⟨_, rfl, ?_⟩
      rw [elems_false hph]
      simp only [valueCells, arrayCells, he, if_true]
      exact tail_expanded _ _ (map_clean vs)
    | flts k l =>
      rw [hv] at ho
      refine ⟨_, rfl, ?_⟩
      rw [elems_false hph]
      simp only [valueCells, arrayCells, he, if_true]
      exact tail_expanded _ _ ho.1
    | ts a b => rw [hv] at hp; exact absurd rfl hp.1
    | other => rw [hv] at hp; exact absurd rfl hp.2
  | some p =>
    unfold colText colCells
    cases hv : c.val with
    | ts a b =>
      refine ⟨_, rfl, ?_⟩
      rw [lead_phony hph]
      exact tail_time cfg a b
    | str k s =>
      rw [hv] at ho
      refine ⟨_, rfl, ?_⟩
      rw [lead_phony hph]
      simp only [hph, Option.isSome_some, if_true]
      exact Tail.one (rd_wsqt ho)
    | int k v => rw [hph, hv] at hp; cases p <;> simp [Prim.tag] at hp
    | flt k t => rw [hph, hv] at hp; cases p <;> simp [Prim.tag] at hp
    | chr d => rw [hph, hv] at hp; cases p <;> simp [Prim.tag] at hp
    | ints k vs => rw [hph, hv] at hp; cases p <;> simp [Prim.tag] at hp
    | flts k l => rw [hph, hv] at hp; cases p <;> simp [Prim.tag] at hp
    | other => rw [hph, hv] at hp; cases p <;> simp [Prim.tag] at hp

theorem tail_cols {cfg : Cfg} (he : cfg.expand = true) : ∀ {cs : List Col} {l : List CType},
    Match (ColFits cfg) cs l →
    ∃ x, rowCols cfg false cs = some x ∧ Tail x ((expectRow cfg cs).map (·.2))
  | [], [], _ => ⟨_, rfl, Tail.nil⟩
  | [], _ :: _, h => nomatch h
  | _ :: _, [], h => nomatch h
  | c :: cs, t :: l, h => by
    obtain ⟨x, hx, hT⟩ := tail_col he h.1
    obtain ⟨y, hy, hU⟩ := tail_cols he h.2
    refine ⟨x ++ y, by simp [rowCols, hx, hy], ?_⟩
    rw [expectRow_eq, List.map_cons, List.flatten_cons, List.map_append]
    exact hT.append hU

theorem row_line {cfg : Cfg} (he : cfg.expand = true) {row : List Col} {l : List CType}
    (h : RowFits cfg l row) :
    ∃ x, rowCols cfg true row = some x ∧ Line x ((expectRow cfg row).map (·.2)) := by
  obtain ⟨hm, c, cs, rfl, hp⟩ := h
  cases l with
  | nil => exact nomatch hm
  | cons t l =>
    obtain ⟨y, hy, hU⟩ := tail_cols he hm.2
    obtain ⟨_, _, _, _, ho, hv⟩ := hm.1
    cases hph : c.phony with
    | none => exact absurd hph hp
    | some p =>
      rw [expectRow_eq, List.map_cons, List.flatten_cons, List.map_append]
      unfold rowCols colText colCells
      cases hval : c.val with
      | ts a b =>
        refine ⟨timeText cfg a b ++ y, ?_, time_line cfg a b hU⟩
        simp [lead_phony hph, hy]
      | str k s =>
        rw [hval] at ho
        refine ⟨(wsqt cfg ++ s ++ wsqt cfg) ++ y, ?_, ?_⟩
        · simp [lead_phony hph, hy]
        · simp only [hph, Option.isSome_some, if_true]
          exact line_of (rd_wsqt ho) hU
      | int k v => rw [hph, hval] at hv; cases p <;> simp [Prim.tag] at hv
      | flt k t => rw [hph, hval] at hv; cases p <;> simp [Prim.tag] at hv
      | chr d => rw [hph, hval] at hv; cases p <;> simp [Prim.tag] at hv
      | ints k vs => rw [hph, hval] at hv; cases p <;> simp [Prim.tag] at hv
      | flts k l => rw [hph, hval] at hv; cases p <;> simp [Prim.tag] at hv
      | other => rw [hph, hval] at hv; cases p <;> simp [Prim.tag] at hv

/-- The names of the columns of a column of a row. -/
def ctypeNames (cfg : Cfg) (t : CType) : List (List Char) :=
  match t.phony with
  | some .time => (timeCells cfg 0 0).map (·.1)
  | some _ => [t.name]
  | none => typeNames cfg t.name t.type

theorem col_names {cfg : Cfg} {c : Col} {t : CType} (h : ColFits cfg c t) :
    (colCells cfg c).map (·.1) = ctypeNames cfg t := by
  obtain ⟨hn, hp, ht, _, _, hv⟩ := h
  unfold ctypeNames colCells
  rw [← hp, ← hn]
  cases hph : c.phony with
  | none =>
    have hval := value_names cfg c.udata c.name ht
    rw [hph] at hv
    cases hc : c.val <;> rw [hc] at hv hval <;>
      simp only [Prim.tag, ne_eq, not_true_eq_false, and_false, false_and] at hv <;>
      simpa [hph, valueCells] using hval
  | some p =>
    rw [hph] at hv
    cases p <;> cases hc : c.val <;> rw [hc] at hv <;> simp [Prim.tag] at hv
    · exact timeCells_names cfg _ _
    · rfl
    · rfl

theorem cols_names {cfg : Cfg} : ∀ {cs : List Col} {l : List CType}, Match (ColFits cfg) cs l →
    (expectRow cfg cs).map (·.1) = (l.map (ctypeNames cfg)).flatten
  | [], [], _ => rfl
  | [], _ :: _, h => nomatch h
  | _ :: _, [], h => nomatch h
  | c :: cs, t :: l, h => by
    have ih := cols_names h.2
    rw [expectRow_eq] at ih ⊢
    simp only [List.map_cons, List.flatten_cons, List.map_append, ih, col_names h.1]

theorem cols_header {cfg : Cfg} : ∀ {cs : List Col} {l : List CType}, Match (ColFits cfg) cs l →
    ∃ x, headerCols cfg [','] (cs.map Col.head) = (x, true) ∧
      Tail x (l.map (ctypeNames cfg)).flatten
  | [], [], _ => ⟨_, rfl, Tail.nil⟩
  | [], _ :: _, h => nomatch h
  | _ :: _, [], h => nomatch h
  | c :: cs, t :: l, h => by
    obtain ⟨x, hx, hT⟩ := cols_header h.2
    obtain ⟨hn, hp, ht, hok, _, hv⟩ := h.1
    have a := okMsec cfg
    have b := okTime cfg
    have d := okUsec cfg
    simp only [List.map_cons, List.flatten_cons]
    unfold ctypeNames
    rw [← hp, ← hn]
    cases hph : c.phony with
    | none =>
      refine ⟨primHeader cfg c.name c.val.tag c.val.count [','] ++ x, ?_, ?_⟩
      · simp [Col.head, hph, headerCols, hx]
      · exact (tail_header_type ht hok).append hT
    | some p =>
      cases p with
      | time =>
        refine ⟨[','] ++ (wsqt cfg ++ (if cfg.msec then "Time_msec".toList else "Time".toList) ++
          wsqt cfg) ++ ',' :: (wsqt cfg ++ "Time_usec".toList ++ wsqt cfg) ++ x, ?_, ?_⟩
        · simp [Col.head, hph, headerCols, hx]
        · refine Tail.append ?_ hT
          unfold timeCells
          split
          · exact Tail.cons (rd_wsqt a) (Tail.one (rd_wsqt d))
          · exact Tail.cons (rd_wsqt b) (Tail.one (rd_wsqt d))
      | producer =>
        refine ⟨[','] ++ (wsqt cfg ++ c.name ++ wsqt cfg) ++ x, ?_, ?_⟩
        · simp [Col.head, hph, headerCols, hx]
        · exact Tail.cons (rd_wsqt hok) hT
      | «instance» =>
        refine ⟨[','] ++ (wsqt cfg ++ c.name ++ wsqt cfg) ++ x, ?_, ?_⟩
        · simp [Col.head, hph, headerCols, hx]
        · exact Tail.cons (rd_wsqt hok) hT

theorem row_header {cfg : Cfg} {row : List Col} {l : List CType} (h : RowFits cfg l row) :
    ∃ x, headerText cfg (row.map Col.head) = '#' :: x ++ ['\n'] ∧
      Line x ((l.map (ctypeNames cfg)).flatten) := by
  obtain ⟨hm, c, cs, rfl, hp⟩ := h
  cases l with
  | nil => exact nomatch hm
  | cons t l =>
    obtain ⟨x, hx, hT⟩ := cols_header hm.2
    obtain ⟨hn, hpt, _, hok, _, _⟩ := hm.1
    simp only [List.map_cons, List.flatten_cons, headerText]
    unfold ctypeNames
    rw [← hpt, ← hn]
    cases hph : c.phony with
    | none => exact absurd hph hp
    | some p =>
      cases p with
      | time =>
        refine ⟨_, ?_, timeNames_line cfg 0 0 hT⟩
        simp [Col.head, hph, headerCols, hx]
      | producer =>
        refine ⟨_, ?_, line_of (rd_wsqt hok) hT⟩
        simp [Col.head, hph, headerCols, hx]
      | «instance» =>
        refine ⟨_, ?_, line_of (rd_wsqt hok) hT⟩
        simp [Col.head, hph, headerCols, hx]

theorem rows_next {cfg : Cfg} (he : cfg.expand = true) {l : List CType} :
    ∀ (rows : List (List Col)) (f : List Char), (∀ r ∈ rows, RowFits cfg l r) →
    ∃ y, storeRows cfg rows false f = some (f ++ y) ∧
      readLines y = some ((rows.map (expectRow cfg)).map fun line => line.map (·.2))
  | [], f, _ => ⟨[], by simp [storeRows], rfl⟩
  | r :: rows, f, h => by
    obtain ⟨x, hx, hL⟩ := row_line he (h r (by simp))
    obtain ⟨y, hy, hr⟩ := rows_next he rows (f ++ x ++ ['\n']) fun q hq => h q (by simp [hq])
    refine ⟨x ++ '\n' :: y, ?_, ?_⟩
    · have : storeRow cfg r false f = some (f ++ x ++ ['\n']) := by
        simp [storeRow, hx]
      rw [storeRows, this]
      simp only [hy]
      simp
    · rw [hL, hr]; rfl

end Verif.Csv
