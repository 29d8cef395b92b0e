import Verif.Decomp.Hist
import Verif.Decomp.AsIs

/-!
# C60: the rows that are stored of a set

A storage policy with a decomposition stores, for every update of a set, the rows the
configuration describes: one per element of the lists, in order, each with the values
of that update, whatever sets have been stored before.
-/

namespace Verif.Decomp

/-! ## Examples -/

/-- A value of type U64. -/
def u64 (n : Nat) : Val := ⟨9, 1, [n]⟩

/-- A process record. -/
def proc (pid mem : Nat) : Rec := [("pid".toList, u64 pid), ("mem".toList, u64 mem)]

/-- A set with two lists of different length, an array and a value. -/
def exSet (procs : List Elem) : MSet where
  schema := "node".toList
  digest := [1, 2, 3, 4]
  producer := [110]
  inst := [110, 47, 97]
  ts := [100, 5]
  metrics := [("load".toList, .val (u64 7)), ("proc_t".toList, .recType),
    ("procs".toList, .list procs), ("temps".toList, .list [.val (u64 40), .val (u64 41)]),
    ("disks".toList, .arr [proc 0 10, proc 1 11])]

/-- Three processes. -/
def exProcs : List Elem := [.record (proc 1 100), .record (proc 2 200), .record (proc 3 300)]

/-- A column. -/
def exCol (src : String) (member : Option String) (dst : String) : Col :=
  ⟨9, 1, src.toList, member.map String.toList, dst.toList, [0], 1⟩

/-- Columns with the processes, the temperatures, the load, an array, and a metric that
does not exist; one index. -/
def exRow : RowCfg where
  schema := "flat".toList
  cols := [exCol "procs" (some "mem") "mem", exCol "temps" none "temp",
    exCol "load" none "load", exCol "disks" (some "pid") "disk", exCol "gone" none "gone"]
  idxs := [("i".toList, [2, 0])]

theorem exProcs_usable (n : Name) : Usable (some n) (.list exProcs) := by
  refine ⟨⟨.record ["pid".toList, "mem".toList], ?_⟩, ?_, ?_⟩
  · intro e he
    simp only [exProcs, List.mem_cons, List.not_mem_nil, or_false] at he
    rcases he with rfl | rfl | rfl <;> rfl
  · intro v hv; simp [exProcs] at hv
  · intro r _; simp

theorem exFits {procs : List Elem} (h : procs = exProcs ∨ procs = []) :
    Fits (exSet procs) exRow.cols := by
  intro c hc m hm
  simp only [exRow, List.mem_cons, List.not_mem_nil, or_false] at hc
  rcases hc with rfl | rfl | rfl | rfl | rfl
  · have : m = .list procs := by
      have h' : metricOf (exSet procs) (exCol "procs" (some "mem") "mem").src =
        some (.list procs) := rfl
      rw [h'] at hm; cases hm; rfl
    subst this
    rcases h with rfl | rfl
    · exact exProcs_usable _
    · exact ⟨⟨.value, by simp⟩, by simp, by simp⟩
  · have h' : metricOf (exSet procs) (exCol "temps" none "temp").src =
        some (.list [.val (u64 40), .val (u64 41)]) := rfl
    rw [h'] at hm; cases hm
    refine ⟨⟨.value, ?_⟩, ?_, ?_⟩
    · intro e he
      simp only [List.mem_cons, List.not_mem_nil, or_false] at he
      rcases he with rfl | rfl <;> rfl
    · intro v hv
      simp only [List.mem_cons, List.not_mem_nil, or_false, Elem.val.injEq] at hv
      rcases hv with rfl | rfl <;> exact ⟨by decide, rfl⟩
    · intro r hr; simp at hr
  · have h' : metricOf (exSet procs) (exCol "load" none "load").src = some (.val (u64 7)) := rfl
    rw [h'] at hm; cases hm
    show (9 : Nat) ≤ 22
    omega
  · have h' : metricOf (exSet procs) (exCol "disks" (some "pid") "disk").src =
        some (.arr [proc 0 10, proc 1 11]) := rfl
    rw [h'] at hm; cases hm
    refine ⟨by simp, ["pid".toList, "mem".toList], ?_⟩
    intro r hr
    simp only [List.mem_cons, List.not_mem_nil, or_false] at hr
    rcases hr with rfl | rfl <;> rfl
  · have h' : metricOf (exSet procs) (exCol "gone" none "gone").src = none := rfl
    rw [h'] at hm; cases hm

theorem exAlike : Alike (exSet []) (exSet exProcs) := by
  refine ⟨rfl, ?_⟩
  intro i m m' h1 h2
  match i with
  | 0 => cases h1; cases h2; rfl
  | 1 => cases h1; cases h2; trivial
  | 2 => cases h1; cases h2; intro e he; simp at he
  | 3 =>
    cases h1; cases h2
    intro e he e' he'
    simp only [List.mem_cons, List.not_mem_nil, or_false] at he he'
    rcases he with rfl | rfl <;> rcases he' with rfl | rfl <;> rfl
  | 4 =>
    cases h1; cases h2
    intro e he e' he'
    simp only [List.mem_cons, List.not_mem_nil, or_false] at he he'
    rcases he with rfl | rfl <;> rcases he' with rfl | rfl <;> rfl
  | i + 5 => simp [exSet] at h1

/-! ## static -/

/-- Whatever sets have been decomposed before, as long as those of the same digest were
of the same kind, the rows of a set are those the configuration describes; and if a cell
does not have the type of its column then no row at all is stored. -/
theorem static_rows_partial {cfg : List RowCfg} {hist : List MSet} {s : MSet}
    (hs : ∀ rc ∈ cfg, Fits s rc.cols)
    (hh : ∀ u ∈ hist, u.digest = s.digest → Alike u s ∧ ∀ rc ∈ cfg, Fits u rc.cols) :
    (static (after cfg hist) s).2 = Res.ofOption (staticRows s cfg) := by
  obtain ⟨h1, h2⟩ := after_inv cfg hist
  have hmem : ∀ st ∈ after cfg hist, st.cfg ∈ cfg := by
    intro st hst
    rw [← h2]
    exact List.mem_map.mpr ⟨st, hst, rfl⟩
  have := static_ok h1 (fun st hst => hs _ (hmem st hst)) fun st hst u hu hd =>
    ⟨(hh u hu hd).1, (hh u hu hd).2 _ (hmem st hst)⟩
  rw [h2] at this
  exact this

/-- The rows of the example, after a set of the same digest with no processes. -/
example : (static (after [exRow] [exSet []]) (exSet exProcs)).2 =
    Res.ofOption (staticRows (exSet exProcs) [exRow]) :=
  static_rows_partial (fun rc h => by
      rw [List.mem_singleton] at h
      subst h
      exact exFits (.inl rfl))
    fun u hu _ => by
      rw [List.mem_singleton] at hu
      subst hu
      exact ⟨exAlike, fun rc h => by
        rw [List.mem_singleton] at h
        subst h
        exact exFits (.inr rfl)⟩

/-- The values of the example: three rows. -/
example : (staticRows (exSet exProcs) [exRow]).map (·.map fun r => r.cells.map (·.val.data)) =
    some [[[100], [40], [7], [0], [0]], [[200], [41], [7], [1], [0]],
      [[300], [0], [7], [0], [0]]] := by decide

/-- The index of the example's first row. -/
example : (staticRows (exSet exProcs) [exRow]).map (·.map fun r =>
      r.idxs.map fun i => i.2.map (·.val.data)) =
    some [[[[7], [100]]], [[[7], [200]]], [[[7], [300]]]] := by decide

/-- What was decomposed before does not matter. -/
theorem static_history_partial {cfg : List RowCfg} {hist hist' : List MSet} {s : MSet}
    (hs : ∀ rc ∈ cfg, Fits s rc.cols)
    (hh : ∀ u ∈ hist ++ hist', u.digest = s.digest →
      Alike u s ∧ ∀ rc ∈ cfg, Fits u rc.cols) :
    (static (after cfg hist) s).2 = (static (after cfg hist') s).2 := by
  rw [static_rows_partial hs fun u hu => hh u (List.mem_append_left _ hu),
    static_rows_partial hs fun u hu => hh u (List.mem_append_right _ hu)]

/-- What the r-th row shows, for one row schema: as many rows as specified, every column
with its value. -/
theorem static_cells {rc : RowCfg} {hist : List MSet} {s : MSet} {rows : List Row}
    (hs : Fits s rc.cols)
    (hh : ∀ u ∈ hist, u.digest = s.digest → Alike u s ∧ Fits u rc.cols)
    (h : (static (after [rc] hist) s).2 = .ok rows) :
    rows.length = rowCount s rc.cols ∧
    ∀ (r : Nat) row, rows[r]? = some row → row.schema = rc.schema ∧
      row.cells = rc.cols.map fun c =>
        ⟨c.dst, (columnOf s c).at ⟨c.type, c.arrayLen, c.fill⟩ r⟩ := by
  rw [static_rows_partial (by simpa using hs) (by simpa using hh)] at h
  have hr : ∃ rs, rowsOf s rc = some rs ∧ rs = rows := by
    unfold staticRows at h
    rw [List.mapM_cons] at h
    cases hx : rowsOf s rc with
    | none => rw [hx] at h; simp [Res.ofOption] at h
    | some rs =>
      rw [hx] at h
      simp [Res.ofOption] at h
      exact ⟨rs, rfl, h⟩
  obtain ⟨rs, hr, rfl⟩ := hr
  have key : ∀ (n : Nat) (l : List Nat) (rs : List Row), l = List.range' n l.length →
      (l.mapM fun r => (rc.cols.mapM (cellOf s r)).map (rowOf rc)) = some rs →
      rs.length = l.length ∧ ∀ (r : Nat) row, rs[r]? = some row → row.schema = rc.schema ∧
        row.cells = rc.cols.map fun c =>
          ⟨c.dst, (columnOf s c).at ⟨c.type, c.arrayLen, c.fill⟩ (n + r)⟩ := by
    intro n l
    induction l generalizing n with
    | nil => intro rs _ h; cases h; simp
    | cons a l ih =>
      intro rs hl h
      rw [List.length_cons, List.range'_succ] at hl
      simp only [List.cons.injEq] at hl
      obtain ⟨rfl, hl⟩ := hl
      rw [List.mapM_cons] at h
      cases hc : rc.cols.mapM (cellOf s a) with
      | none => rw [hc] at h; simp at h
      | some cells =>
        rw [hc] at h
        cases hm : l.mapM fun r => (rc.cols.mapM (cellOf s r)).map (rowOf rc) with
        | none => rw [hm] at h; simp at h
        | some rs' =>
          rw [hm] at h
          simp at h
          subst h
          obtain ⟨i1, i2⟩ := ih (a + 1) rs' hl hm
          refine ⟨by simp [i1], ?_⟩
          intro r row hrow
          cases r with
          | zero =>
            simp at hrow
            subst hrow
            refine ⟨rfl, ?_⟩
            have hcells : ∀ (cs : List Col) (cells : List Cell),
                cs.mapM (cellOf s a) = some cells → cells = cs.map fun c =>
                  ⟨c.dst, (columnOf s c).at ⟨c.type, c.arrayLen, c.fill⟩ a⟩ := by
              intro cs
              induction cs with
              | nil => intro cells h; cases h; rfl
              | cons c cs ihc =>
                intro cells h
                rw [List.mapM_cons] at h
                cases h1 : cellOf s a c with
                | none => rw [h1] at h; simp at h
                | some y =>
                  rw [h1] at h
                  cases h2 : cs.mapM (cellOf s a) with
                  | none => rw [h2] at h; simp at h
                  | some ys =>
                    rw [h2] at h
                    simp at h
                    subst h
                    rw [List.map_cons, ← ihc ys h2]
                    simp only [cellOf] at h1
                    split at h1
                    · cases h1; rfl
                    · cases h1
            simpa [rowOf] using hcells _ _ hc
          | succ r =>
            have := i2 r row (by simpa using hrow)
            rw [show a + (r + 1) = a + 1 + r by omega]
            exact this
  obtain ⟨k1, k2⟩ := key 0 _ _ (by rw [List.length_range, List.range_eq_range']) hr
  refine ⟨by simpa using k1, ?_⟩
  intro r row hrow
  have := k2 r row hrow
  rwa [Nat.zero_add] at this

/-- Row `r` shows the member asked for of the `r`-th record of a list, and there is a row
for every record. -/
theorem static_record_rows {rc : RowCfg} {hist : List MSet} {s : MSet} {rows : List Row}
    (hs : Fits s rc.cols)
    (hh : ∀ u ∈ hist, u.digest = s.digest → Alike u s ∧ Fits u rc.cols)
    (h : (static (after [rc] hist) s).2 = .ok rows)
    {j : Nat} {c : Col} {n : Name} {es : List Elem} (hc : rc.cols[j]? = some c)
    (hp : c.src ≠ "timestamp".toList ∧ c.src ≠ "producer".toList ∧ c.src ≠ "instance".toList)
    (hm : metricOf s c.src = some (.list es)) (hn : c.member = some n)
    (hmem : ∀ e ∈ es, ∃ r v, e = .record r ∧ memberOf n r = some v) :
    es.length ≤ rows.length ∧
    ∀ (r : Nat) rec' v, es[r]? = some (.record rec') → memberOf n rec' = some v →
      ∃ row, rows[r]? = some row ∧ row.cells[j]? = some ⟨c.dst, v⟩ := by
  obtain ⟨h1, h2⟩ := static_cells hs hh h
  have hcol : columnOf s c =
      Column.ofVals .each ⟨c.type, c.fillLen, c.fill⟩ (es.filterMap (elemVal c.member)) := by
    unfold columnOf
    rw [if_neg hp.1, if_neg hp.2.1, if_neg hp.2.2, hm]
    rfl
  let g : Elem → Val := fun e => (elemVal c.member e).getD ⟨0, 0, []⟩
  have hf : es.filterMap (elemVal c.member) = es.map g := by
    refine filterMap_all fun e he => ?_
    obtain ⟨r, v, rfl, hv⟩ := hmem e he
    simp [g, elemVal, hn, hv]
  have hlen : es.length ≤ rows.length := by
    rw [h1, rowCount]
    have hle : ∀ (cs : List Col) (j : Nat), cs[j]? = some c →
        (columnOf s c).rows ≤ (cs.map fun c => (columnOf s c).rows).foldr max 1 := by
      intro cs
      induction cs with
      | nil => intro j h; simp at h
      | cons x cs ih =>
        intro j h
        rw [List.map_cons, List.foldr_cons]
        cases j with
        | zero => simp at h; subst h; omega
        | succ j => have := ih j (by simpa using h); omega
    refine Nat.le_trans ?_ (hle _ j hc)
    rw [hcol, hf]
    cases es <;> simp [Column.ofVals, Column.rows]
  refine ⟨hlen, ?_⟩
  intro r rec' v hr hv
  have hlt : r < es.length := by
    rcases Nat.lt_or_ge r es.length with h | h
    · exact h
    · rw [List.getElem?_eq_none h] at hr; cases hr
  have hlt' : r < rows.length := by omega
  refine ⟨rows[r], List.getElem?_eq_getElem hlt', ?_⟩
  rw [(h2 r _ (List.getElem?_eq_getElem hlt')).2, List.getElem?_map, hc, Option.map_some, hcol, hf]
  have hgr : (es.map g)[r]? = some v := by
    rw [List.getElem?_map, hr, Option.map_some]
    simp [g, elemVal, hn, hv]
  have hat : (Column.ofVals .each ⟨c.type, c.fillLen, c.fill⟩ (es.map g)).at
      ⟨c.type, c.arrayLen, c.fill⟩ r = v := by
    cases hl : es.map g with
    | nil => rw [hl] at hgr; simp at hgr
    | cons x xs =>
      rw [hl] at hgr
      simp only [Column.ofVals, Column.at, List.getD_eq_getElem?_getD, hgr, Option.getD_some]
  rw [hat]

/-- A cell of the wrong type keeps all rows of the set from being stored, those of the
other row schemas too. -/
theorem static_type_mismatch {cfg : List RowCfg} {hist : List MSet} {s : MSet}
    (hs : ∀ rc ∈ cfg, Fits s rc.cols)
    (hh : ∀ u ∈ hist, u.digest = s.digest → Alike u s ∧ ∀ rc ∈ cfg, Fits u rc.cols)
    {rc : RowCfg} {c : Col} {r : Nat} (hrc : rc ∈ cfg) (hc : c ∈ rc.cols)
    (hr : r < rowCount s rc.cols)
    (ht : ((columnOf s c).at ⟨c.type, c.arrayLen, c.fill⟩ r).ty ≠ c.type) :
    (static (after cfg hist) s).2 = .fail := by
  rw [static_rows_partial hs hh]
  have none_of : ∀ {α β : Type} (f : α → Option β) (l : List α) (a : α), a ∈ l → f a = none →
      l.mapM f = none := by
    intro α β f l a ha hf
    induction l with
    | nil => simp at ha
    | cons b l ih =>
      rw [List.mapM_cons]
      rcases List.mem_cons.mp ha with rfl | ha
      · simp [hf]
      · rw [ih ha]
        cases f b <;> simp
  have h1 : cellOf s r c = none := by simp [cellOf, ht]
  have h2 : rowsOf s rc = none := by
    refine none_of _ _ r (List.mem_range.mpr hr) ?_
    rw [none_of _ _ c hc h1]
    rfl
  rw [staticRows, none_of _ _ rc hrc h2]
  rfl

/-- The example with a column of another type: nothing is stored. -/
example : (static (after [exRow, ⟨"other".toList, [⟨8, 1, "load".toList, none, "load".toList,
    [0], 1⟩], []⟩] []) (exSet exProcs)).2 = .fail := by decide

/-- Rows and their number do not depend on what is at the place where the number is
reported. -/
theorem commit_count (d : Decomp) (s : MSet) (n : Nat) {rows : List Row} {k : Nat}
    (h : (commitDecomp d s n).2 = .ok (rows, k)) : k = rows.length := by
  simp only [commitDecomp] at h
  cases hr : (runDecomp d s).2 with
  | ok rs =>
    rw [hr] at h
    simp only [Res.map, Res.ok.injEq, Prod.mk.injEq] at h
    obtain ⟨rfl, rfl⟩ := h
    rfl
  | fail => rw [hr] at h; cases h
  | crash => rw [hr] at h; cases h

example : (commitDecomp (.static (fresh [exRow])) (exSet exProcs) 99).2.map (·.2) = .ok 3 := by
  decide

/-! ## What goes wrong with static -/

/-- The wish: rows depend on the set and the configuration only, and no set crashes the
daemon. -/
def StaticAlways : Prop :=
  ∀ (cfg : List RowCfg) (hist : List MSet) (s : MSet),
    (static (after cfg hist) s).2 = Res.ofOption (staticRows s cfg)

/-- A process record with the members the other way round, as a second record type of
the same schema would have them. -/
def cors (pid mem : Nat) : Elem :=
  .record [("mem".toList, u64 mem), ("pid".toList, u64 pid)]

/-- Where a member is is found once per digest: after a set with records of one type, a
set of the same digest with records of another type has the wrong member stored. -/
theorem wrong_member_defect :
    let rc : RowCfg := ⟨"flat".toList, [exCol "procs" (some "mem") "mem"], []⟩
    (static (after [rc] []) (exSet [cors 1 100])).2.map
        (·.map fun r => r.cells.map (·.val.data)) = .ok [[[100]]] ∧
    (static (after [rc] [exSet exProcs]) (exSet [cors 1 100])).2.map
        (·.map fun r => r.cells.map (·.val.data)) = .ok [[[1]]] := by decide

/-- Records of two types in one list: the second has the wrong member stored. -/
theorem mixed_records_defect :
    let rc : RowCfg := ⟨"flat".toList, [exCol "procs" (some "mem") "mem"], []⟩
    (static (after [rc] []) (exSet [.record (proc 1 100), cors 2 200])).2.map
        (·.map fun r => r.cells.map (·.val.data)) = .ok [[[100]], [[2]]] := by decide

/-- A record with fewer members after one with more: the daemon crashes. -/
theorem short_record_defect :
    let rc : RowCfg := ⟨"flat".toList, [exCol "procs" (some "mem") "mem"], []⟩
    (static (after [rc] []) (exSet [.record (proc 1 100),
      .record [("pid".toList, u64 2)]])).2 = .crash := by decide

/-- A column that asks for a member of a list of values crashes the daemon. -/
theorem member_of_value_defect :
    let rc : RowCfg := ⟨"flat".toList, [exCol "temps" (some "mem") "mem"], []⟩
    (static (after [rc] []) (exSet exProcs)).2 = .crash := by decide

/-- A column without a member on a list that was empty at first and then has records
crashes the daemon; on a list that had records from the start it shows the fill value. -/
theorem no_member_defect :
    let rc : RowCfg := ⟨"flat".toList, [exCol "procs" none "mem"], []⟩
    (static (after [rc] [exSet []]) (exSet exProcs)).2 = .crash ∧
    (static (after [rc] []) (exSet exProcs)).2.map (·.length) = .ok 1 := by decide

theorem static_always_false : ¬ StaticAlways := fun h => by
  have h1 := h [⟨"flat".toList, [exCol "temps" (some "mem") "mem"], []⟩] [] (exSet exProcs)
  rw [member_of_value_defect] at h1
  cases hx : staticRows (exSet exProcs)
      [⟨"flat".toList, [exCol "temps" (some "mem") "mem"], []⟩] <;> rw [hx] at h1 <;> cases h1

/-- Of an array of records only the first is stored, however many there are. -/
theorem array_truncated_defect (n : Nat) (r : Rec) (rs : List Rec) (ty : Nat) (m : Name) (v : Val)
    (hv : memberOf m r = some v) (ht : v.ty = ty) (hr : ∀ r' ∈ rs, r'.map (·.1) = r.map (·.1)) :
    let rc : RowCfg := ⟨"flat".toList,
      [⟨ty, n, "disks".toList, some m, "disk".toList, [0], 1⟩], []⟩
    let s : MSet := ⟨"node".toList, [1], [110], [110], [1], [("disks".toList, .arr (r :: rs))]⟩
    (static (after [rc] []) s).2.map (·.map fun r => r.cells.map (·.val)) = .ok [[v]] := by
  intro rc s
  have hfit : Fits s rc.cols := by
    intro c hc x hx
    simp only [rc, List.mem_singleton] at hc
    subst hc
    have h' : metricOf s "disks".toList = some (.arr (r :: rs)) := rfl
    rw [h'] at hx
    cases hx
    refine ⟨by simp, r.map (·.1), fun r' h => ?_⟩
    rcases List.mem_cons.mp h with rfl | h
    · rfl
    · exact hr r' h
  rw [static_rows_partial (by simpa using hfit) (by simp)]
  have hcol : columnOf s ⟨ty, n, "disks".toList, some m, "disk".toList, [0], 1⟩ =
      .array (v :: rs.filterMap (memberOf m)) := by
    have h' : metricOf s "disks".toList = some (.arr (r :: rs)) := rfl
    have h1 : ("disks".toList = "timestamp".toList) = False := by simp
    have h2 : ("disks".toList = "producer".toList) = False := by simp
    have h3 : ("disks".toList = "instance".toList) = False := by simp
    simp only [columnOf, h', h1, h2, h3, if_false, metricCol, Option.bind_some,
      List.filterMap_cons, hv, Column.ofVals]
  have hcells : rc.cols.mapM (cellOf s 0) = some [⟨"disk".toList, v⟩] := by
    show [_].mapM (cellOf s 0) = _
    rw [List.mapM_cons, cellOf, hcol]
    show (do
      let x ← (if v.ty = ty then some (⟨"disk".toList, v⟩ : Cell) else none)
      let xs ← [].mapM (cellOf s 0)
      pure (x :: xs)) = _
    rw [if_pos ht]
    rfl
  have hcount : rowCount s rc.cols = 1 := by
    show max (columnOf s _).rows 1 = 1
    rw [hcol]
    rfl
  have hrows : rowsOf s rc = some [rowOf rc [⟨"disk".toList, v⟩]] := by
    rw [rowsOf, hcount]
    show [0].mapM _ = _
    rw [List.mapM_cons, hcells]
    rfl
  rw [staticRows, List.mapM_cons, hrows]
  rfl

example : memberOf "pid".toList (proc 5 6) = some (u64 5) := by decide

/-- A metric called `timestamp`, `producer` or `instance` cannot be stored: the column
shows the time stamp, the producer or the instance. -/
theorem named_like_phony_defect (v : Val) (hv : v.ty = 9) :
    let rc : RowCfg := ⟨"flat".toList, [exCol "timestamp" none "x"], []⟩
    let s : MSet := ⟨"node".toList, [1], [110], [110], [1], [("timestamp".toList, .val v)]⟩
    (static (after [rc] []) s).2 = .fail := by
  intro rc s
  refine static_type_mismatch (rc := rc) (c := exCol "timestamp" none "x") (r := 0) ?_ (by simp)
    (by simp) (by simp [rc]) ?_ ?_
  · intro rc' hrc' c hc x hx
    rw [List.mem_singleton] at hrc'
    subst hrc'
    simp only [rc, List.mem_singleton] at hc
    subst hc
    have h' : metricOf s (exCol "timestamp" none "x").src = some (.val v) := rfl
    rw [h'] at hx
    cases hx
    show v.ty ≤ 22
    omega
  · have : columnOf s (exCol "timestamp" none "x") = .same ⟨tTimestamp, 1, s.ts⟩ := rfl
    simp [rowCount, rc, this, Column.rows]
  · have : columnOf s (exCol "timestamp" none "x") = .same ⟨tTimestamp, 1, s.ts⟩ := rfl
    rw [this]
    show (28 : Nat) ≠ 9
    omega

/-- The fill value of an array column has the length of the fill value where the metric
does not exist, but the length of the column after the end of a list. -/
theorem fill_length_defect :
    let c : Col := ⟨20, 4, "procs".toList, some "mem".toList, "a".toList, [0, 0], 2⟩
    let d : Col := ⟨9, 1, "temps".toList, none, "t".toList, [0], 1⟩
    let r : Elem := .record [("mem".toList, ⟨20, 4, [1, 2, 3, 4]⟩)]
    let rc : RowCfg := ⟨"flat".toList, [c, d], []⟩
    (static (after [rc] []) (exSet [])).2.map (·.map fun r => r.cells.map (·.val.len)) =
      .ok [[2, 1], [2, 1]] ∧
    (static (after [rc] []) (exSet [r])).2.map (·.map fun r => r.cells.map (·.val.len)) =
      .ok [[4, 1], [4, 1]] := by decide

/-! ## as_is -/

/-- After any other sets, as long as those that go by the same row schema name were of
the same kind, the rows of a set are its metrics as they are, one row per list element,
under the columns of the first such set whose lists were not empty; before there has been
one, nothing is stored. -/
theorem as_is_rows_partial {idxs : List (Name × List Name)} {hist : List MSet} {s : MSet}
    (hs : Proper s)
    (hh : ∀ u ∈ hist, shortName u = shortName s → Proper u ∧ AlikeT u s) :
    (asIs (aAfter idxs hist) s).2 = asIsSpec idxs hist s := asIs_ok hs hh

theorem exProper {procs : List Elem} (h : procs = exProcs ∨ procs = []) :
    Proper (exSet procs) := by
  refine ⟨by show (List.map _ [_, _, _, _, _]).Nodup; simp only [List.map]; decide, ?_⟩
  intro m hm
  simp only [exSet, List.mem_cons, List.not_mem_nil, or_false] at hm
  rcases hm with rfl | rfl | rfl | rfl | rfl
  · show (9 : Nat) ≤ 22
    omega
  · trivial
  · rcases h with rfl | rfl
    · refine ⟨?_, ?_, ?_, ?_⟩
      · intro e he e' he'
        simp only [exProcs, List.mem_cons, List.not_mem_nil, or_false] at he he'
        rcases he with rfl | rfl | rfl <;> rcases he' with rfl | rfl | rfl <;> rfl
      · intro v hv; simp [exProcs] at hv
      · intro r hr
        simp only [exProcs, List.mem_cons, List.not_mem_nil, or_false, Elem.record.injEq] at hr
        rcases hr with rfl | rfl | rfl <;> decide
      · simp [exProcs]
    · exact ⟨by simp, by simp, by simp, by simp⟩
  · refine ⟨?_, ?_, ?_, ?_⟩
    · intro e he e' he'
      simp only [List.mem_cons, List.not_mem_nil, or_false] at he he'
      rcases he with rfl | rfl <;> rcases he' with rfl | rfl <;> rfl
    · intro v hv
      simp only [List.mem_cons, List.not_mem_nil, or_false, Elem.val.injEq] at hv
      rcases hv with rfl | rfl <;> decide
    · intro r hr; simp at hr
    · simp
  · refine ⟨by simp, ?_, ?_⟩
    · intro r hr
      simp only [List.mem_cons, List.not_mem_nil, or_false] at hr
      rcases hr with rfl | rfl <;> decide
    · intro e he e' he'
      simp only [List.mem_cons, List.not_mem_nil, or_false] at he he'
      rcases he with rfl | rfl <;> rcases he' with rfl | rfl <;> rfl

/-- The example, first set. -/
example : (asIs (aAfter [] []) (exSet exProcs)).2 = asIsSpec [] [] (exSet exProcs) :=
  as_is_rows_partial (exProper (.inl rfl)) (by simp)

/-- Its values. -/
example : (asIs (aAfter [("i".toList, ["load".toList])] []) (exSet exProcs)).2.map
      (·.map fun r => r.cells.map (·.val.data)) =
    .ok [[[100, 5], [7], [1], [100], [40], [0], [10]],
      [[100, 5], [7], [2], [200], [41], [1], [11]],
      [[100, 5], [7], [3], [300], [0], [0], [0]]] := by decide

/-- The first set of its kind with an empty list is not stored at all, nor any of the
sets of its kind before there has been one without. -/
theorem as_is_empty_list_defect {idxs : List (Name × List Name)} {hist : List MSet} {s : MSet}
    (hs : Proper s)
    (hh : ∀ u ∈ hist, shortName u = shortName s → Proper u ∧ AlikeT u s)
    (he : ∀ u ∈ hist ++ [s], shortName u = shortName s → ∃ n, (n, Metric.list []) ∈ u.metrics) :
    (asIs (aAfter idxs hist) s).2 = .fail := by
  rw [as_is_rows_partial hs hh, asIsSpec]
  have : ((hist ++ [s]).find? fun u => decide (shortName u = shortName s) && Ready idxs u) =
      none := by
    rw [List.find?_eq_none]
    intro u hu hc
    simp only [Bool.and_eq_true, decide_eq_true_eq, Ready] at hc
    obtain ⟨n, hn⟩ := he u hu hc.1
    have := (List.all_eq_true.mp hc.2.1) _ hn
    simp [knownCols] at this
  rw [this]

example : (asIs (aAfter [] [exSet []]) (exSet [])).2 = .fail :=
  as_is_empty_list_defect (exProper (.inr rfl)) (by
    intro u hu _
    rw [List.mem_singleton] at hu
    subst hu
    refine ⟨exProper (.inr rfl), rfl, fun i m m' h h' => ?_⟩
    rw [h] at h'
    cases h'
    exact proper_alikeT ((exProper (.inr rfl)).2 m (List.mem_of_getElem? h)))
    fun u hu _ => by
      simp only [List.cons_append, List.nil_append, List.mem_cons, List.not_mem_nil, or_false,
        or_self] at hu
      subst hu
      exact ⟨"procs".toList, by simp [exSet]⟩

theorem hexDigit_inj {a b : Nat} (ha : a < 16) (hb : b < 16) (h : hexDigit a = hexDigit b) :
    a = b := by
  have : ∀ a : Fin 16, ∀ b : Fin 16, hexDigit a = hexDigit b → a = b := by decide
  exact Fin.mk.inj (this ⟨a, ha⟩ ⟨b, hb⟩ h)

/-- Two sets go by the same row schema name if and only if they have the same schema name
and the first 28 bits of their digests are the same. -/
theorem short_name {s t : MSet} {a b c d a' b' c' d' : Nat} {l l' : List Nat}
    (hs : s.digest = a :: b :: c :: d :: l) (ht : t.digest = a' :: b' :: c' :: d' :: l')
    (hb : ∀ x ∈ [a, b, c, d, a', b', c', d'], x < 256) :
    shortName s = shortName t ↔
      s.schema = t.schema ∧ a = a' ∧ b = b' ∧ c = c' ∧ d / 16 = d' / 16 := by
  simp only [List.mem_cons, List.not_mem_nil, or_false, forall_eq_or_imp, forall_eq] at hb
  obtain ⟨h1, h2, h3, h4, h5, h6, h7, h8⟩ := hb
  constructor
  · intro h
    simp only [shortName, hs, ht, List.getD_cons_zero, List.getD_cons_succ, List.flatMap_cons,
      List.flatMap_nil, List.append_assoc, List.cons_append, List.nil_append, List.append_nil] at h
    obtain ⟨hsch, hx⟩ := List.append_inj' h rfl
    simp only [List.cons.injEq, true_and, and_true] at hx
    obtain ⟨x1, x2, x3, x4, x5, x6, x7⟩ := hx
    have y1 := hexDigit_inj (by omega) (by omega) x1
    have y2 := hexDigit_inj (by omega) (by omega) x2
    have y3 := hexDigit_inj (by omega) (by omega) x3
    have y4 := hexDigit_inj (by omega) (by omega) x4
    have y5 := hexDigit_inj (by omega) (by omega) x5
    have y6 := hexDigit_inj (by omega) (by omega) x6
    have y7 := hexDigit_inj (by omega) (by omega) x7
    exact ⟨hsch, by omega, by omega, by omega, y7⟩
  · rintro ⟨e1, rfl, rfl, rfl, e2⟩
    simp [shortName, hs, ht, e1, e2]

example : shortName ⟨"a".toList, [1, 0x2f, 3, 4, 5], [], [], [], []⟩ = "a_012f030".toList := by
  decide

/-- Row schemas are told apart by seven digits of the digest: a set of another kind whose
digest starts the same crashes the daemon. -/
theorem as_is_short_digest_defect :
    let s : MSet := ⟨"a".toList, [1, 2, 3, 4, 5], [], [], [], [("x".toList, .val (u64 1))]⟩
    let t : MSet := ⟨"a".toList, [1, 2, 3, 4, 6], [], [], [],
      [("y".toList, .val ⟨8, 1, [1]⟩)]⟩
    s.digest ≠ t.digest ∧ (asIs (aAfter [] []) t).2 ≠ .crash ∧
    (asIs (aAfter [] [s]) t).2 = .crash := by decide

/-- The types of the elements after the first are not looked at: a value of one type is
stored as one of another. -/
theorem as_is_type_defect :
    let s : MSet := ⟨"a".toList, [1], [], [], [],
      [("x".toList, .list [.val (u64 1), .val ⟨11, 1, [2]⟩])]⟩
    (asIs (aAfter [] []) s).2.map (·.map fun r => r.cells.map (·.val)) =
      .ok [[⟨28, 0, []⟩, u64 1], [⟨28, 0, []⟩, u64 2]] := by decide

/-! ## flex -/

/-- The rows the chosen decompositions give, one after the other; none if one of them
fails. -/
def chosenRows (ds : List Decomp) (s : MSet) (is : List Nat) : Option (List Row) :=
  (is.mapM fun i => match (ds[i]?).map fun d => (runDecomp d s).2 with
    | some (.ok rows) => some rows
    | _ => none).map List.flatten

theorem flexLoop_ok {s : MSet} : ∀ (is : List Nat) (ds : List Decomp) (acc : List Row) (n : Nat),
    is.Nodup → ∀ {rows : List Row}, chosenRows ds s is = some rows →
    (flexLoop s is ds acc n).2 = .ok (acc ++ rows, n + rows.length)
  | [], ds, acc, n, _, rows, h => by
    simp [chosenRows] at h
    subst h
    simp [flexLoop]
  | i :: is, ds, acc, n, hnd, rows, h => by
    rw [List.nodup_cons] at hnd
    simp only [chosenRows, List.mapM_cons] at h
    rw [flexLoop]
    cases hd : ds[i]? with
    | none => rw [hd] at h; simp at h
    | some d =>
      rw [hd] at h
      simp only [Option.map_some] at h
      cases hr : (runDecomp d s).2 with
      | fail => rw [hr] at h; simp at h
      | crash => rw [hr] at h; simp at h
      | ok rs =>
        rw [hr] at h
        have he : runDecomp d s = ((runDecomp d s).1, .ok rs) := by rw [← hr]
        simp only
        rw [he]
        simp only
        have hsame : ∀ l : List Nat, i ∉ l →
            (l.mapM fun j => match ((ds.set i (runDecomp d s).1)[j]?).map fun d =>
                (runDecomp d s).2 with
              | some (.ok rows) => some rows
              | _ => none) =
            (l.mapM fun j => match (ds[j]?).map fun d => (runDecomp d s).2 with
              | some (.ok rows) => some rows
              | _ => none) := by
          intro l
          induction l with
          | nil => intro _; rfl
          | cons j l ih =>
            intro hl
            simp only [List.mem_cons, not_or] at hl
            rw [List.mapM_cons, List.mapM_cons, ih hl.2, List.getElem?_set_ne hl.1]
        have h0 := hsame is hnd.1
        cases hm : is.mapM fun j => match (ds[j]?).map fun d => (runDecomp d s).2 with
            | some (.ok rows) => some rows
            | _ => none with
        | none => rw [hm] at h; simp at h
        | some rss =>
          rw [hm] at h
          simp at h
          subst h
          have := flexLoop_ok is (ds.set i (runDecomp d s).1) (acc ++ rs) (n + rs.length) hnd.2
            (rows := rss.flatten) (by rw [chosenRows, h0, hm]; rfl)
          rw [this]
          simp [Nat.add_assoc]

/-- A flex decomposition gives the rows of the decompositions listed for the digest, or of
those for all other digests, one after the other.  Their number comes on top of what
there was where it is reported. -/
theorem flex_rows_partial {f : Flex} {s : MSet} {n : Nat} {is : List Nat} {rows : List Row}
    (hi : (f.digests.find? (·.1 == s.digest)).map (·.2) = some is ∨
      (f.digests.find? (·.1 == s.digest)) = none ∧ f.dflt = some is)
    (hnd : is.Nodup) (h : chosenRows f.decomps s is = some rows) :
    (flex f s n).2 = .ok (rows, n + rows.length) := by
  have hc : ((f.digests.find? (·.1 == s.digest)).map (·.2) <|> f.dflt) = some is := by
    rcases hi with hi | ⟨h1, h2⟩
    · rw [hi]; rfl
    · rw [h1, h2]; rfl
  rw [flex, hc]
  simpa using flexLoop_ok is f.decomps [] n hnd h

theorem flexLoop_fail {s : MSet} {i : Nat} {post : List Nat} :
    ∀ (pre : List Nat) (ds : List Decomp) (acc : List Row) (n : Nat),
    (pre ++ i :: post).Nodup →
    (∀ j ∈ pre, ∃ d rows, ds[j]? = some d ∧ (runDecomp d s).2 = .ok rows) →
    (∃ d, ds[i]? = some d ∧ (runDecomp d s).2 = .fail) →
    (flexLoop s (pre ++ i :: post) ds acc n).2 = .fail
  | [], ds, acc, n, _, _, ⟨d, hd, hf⟩ => by
    have he : runDecomp d s = ((runDecomp d s).1, .fail) := by rw [← hf]
    rw [List.nil_append, flexLoop, hd]
    simp only
    rw [he]
  | j :: pre, ds, acc, n, hnd, hp, ⟨d, hd, hf⟩ => by
    rw [List.cons_append, List.nodup_cons] at hnd
    obtain ⟨d', rs, hd', hr⟩ := hp j (by simp)
    have he : runDecomp d' s = ((runDecomp d' s).1, .ok rs) := by rw [← hr]
    rw [List.cons_append, flexLoop, hd']
    simp only
    rw [he]
    simp only
    have hne : j ≠ i := fun h => hnd.1 (by simp [h])
    refine flexLoop_fail pre _ _ _ hnd.2 (fun k hk => ?_) ⟨d, ?_, hf⟩
    · obtain ⟨d'', rs', h1, h2⟩ := hp k (List.mem_cons_of_mem _ hk)
      have : j ≠ k := fun h => hnd.1 (by simp [h, hk])
      exact ⟨d'', rs', by rw [List.getElem?_set_ne this]; exact h1, h2⟩
    · rw [List.getElem?_set_ne hne]; exact hd

/-- If one of the decompositions listed fails, nothing is stored of any of them. -/
theorem flex_fail {f : Flex} {s : MSet} {n i : Nat} {pre post : List Nat}
    (hi : (f.digests.find? (·.1 == s.digest)).map (·.2) = some (pre ++ i :: post) ∨
      (f.digests.find? (·.1 == s.digest)) = none ∧ f.dflt = some (pre ++ i :: post))
    (hnd : (pre ++ i :: post).Nodup)
    (hp : ∀ j ∈ pre, ∃ d rows, f.decomps[j]? = some d ∧ (runDecomp d s).2 = .ok rows)
    (hf : ∃ d, f.decomps[i]? = some d ∧ (runDecomp d s).2 = .fail) :
    (flex f s n).2 = .fail := by
  have hc : ((f.digests.find? (·.1 == s.digest)).map (·.2) <|> f.dflt) =
      some (pre ++ i :: post) := by
    rcases hi with hi | ⟨h1, h2⟩
    · rw [hi]; rfl
    · rw [h1, h2]; rfl
  rw [flex, hc]
  exact flexLoop_fail pre f.decomps [] n hnd hp hf

/-- A set with an empty list: as_is fails, so the rows of the other one are not stored. -/
example : (flex ⟨[.static (fresh [exRow]), .asIs ⟨[], []⟩], [], some [0, 1]⟩ (exSet []) 0).2 =
    .fail := by decide

/-- A flex configuration that applies both decompositions to the example. -/
def exFlex : Flex := ⟨[.static (fresh [exRow]), .asIs ⟨[], []⟩], [([1, 2, 3, 4], [1, 0])], some [0]⟩

example : (chosenRows exFlex.decomps (exSet exProcs) [1, 0]).map (·.length) = some 6 := by decide

example : (flex exFlex (exSet exProcs) 0).2.map (fun x => (x.1.length, x.2)) = .ok (6, 6) := by
  decide

/-- The number of rows reported to the store is not that of the rows: nobody sets the
count to zero first. -/
theorem flex_count_defect (n : Nat) (hn : n ≠ 0) :
    ∃ (f : Flex) (s : MSet) (rows : List Row) (k : Nat),
      (flex f s n).2 = .ok (rows, k) ∧ k ≠ rows.length :=
  ⟨⟨[], [], none⟩, exSet [], [], n, rfl, hn⟩

end Verif.Decomp
