import Verif.Csv.Proofs
import Verif.RowJson.Proofs

/-!
# C66: CSV files hold what was stored

What is asked: a CSV file that a set or the rows of a decomposition were stored in, read
by the rules of CSV, is a table in which each value stands under the name of its metric,
in the order in which the sets were stored.
-/

namespace Verif.Csv

open RowJson (IKind FKind dec decInt dec6)

/-! ## Sets -/

/-- Sets of a schema, stored one after the other, are all stored, and the file is read as
the lines expected of them.  Partial: the schema has at most one list, which is never
empty and has entries of one type; names and strings have no commas, quotes or ends of
lines (with `ietfcsv`: no quotes); arrays, unless each element has its own column, are
not empty and not of signed 64-bit numbers.  Each of these is needed, see below. -/
theorem csv_table_partial {cfg : Cfg} {l : Layout} {hist : List Snap} (hne : hist ≠ [])
    (h : ∀ s ∈ hist, Fits cfg l s) :
    (storeAll cfg hist fresh).1 = hist.map (fun _ => .stored) ∧
    readTable (storeAll cfg hist fresh).2.file = some (hist.map (expect cfg)).flatten := by
  cases hist with
  | nil => exact absurd rfl hne
  | cons s hist =>
    have hs := h s (by simp)
    obtain ⟨x, hx, hL⟩ := header_reads hs
    have e : storeAll cfg (s :: hist) fresh =
        ((s :: hist).map fun _ => .stored,
          { numLists := some (listsIn l), lents := true, header := false,
            file := setHeader cfg s ++ linesOf cfg s ++ (hist.map (linesOf cfg)).flatten }) := by
      rw [storeAll, store_first hs]
      simp only [storeAll_next hist _ fun q hq => h q (by simp [hq])]
      simp
    rw [e]
    refine ⟨rfl, ?_⟩
    have hf : setHeader cfg s ++ linesOf cfg s ++ (hist.map (linesOf cfg)).flatten =
        '#' :: x ++ '\n' :: ((s :: hist).map (linesOf cfg)).flatten := by
      rw [hx]; simp
    simp only [hf]
    refine table_of hL (hist_reads (s :: hist) h) ?_
    intro line hl
    obtain ⟨ls, hls, hl⟩ := List.mem_flatten.mp hl
    obtain ⟨q, hq, rfl⟩ := List.mem_map.mp hls
    exact expect_names (h q hq) line hl

/-- The usual configuration. -/
def exCfg : Cfg :=
  { udata := true, ietf := true, expand := false, sep := ':', lq := '"', rq := '"', msec := false }

/-- A set with a number, an array, a string and a list of records. -/
def exSnap (n : Nat) (es : List Ent) : Snap where
  sec := 100
  usec := 7
  producer := "node1".toList
  metrics :=
    [⟨"n".toList, 1, .prim (.int .u64 n)⟩, ⟨"a".toList, 2, .prim (.ints .u8 [1, 2])⟩,
     ⟨"s".toList, 3, .prim (.str 8 "x, y".toList)⟩, ⟨"r".toList, 0, .recType⟩,
     ⟨"l".toList, 4, .list es⟩]

def exEnt (v : Int) : Ent := .record [("p".toList, .int .s64 v), ("q".toList, .chr 'c')]

def exLayout : Layout :=
  [("n".toList, .prim ⟨.int .u64, 1⟩), ("a".toList, .prim ⟨.ints .u8, 2⟩),
   ("s".toList, .prim ⟨.str, 8⟩), ("r".toList, .recType),
   ("l".toList, .list (.record [("p".toList, ⟨.int .s64, 1⟩), ("q".toList, ⟨.chr, 1⟩)]))]

theorem exText {t : List Char} (h : t.all (fun c => decide (c ≠ '"')) = true) : TextOk exCfg t := by
  simp only [TextOk, exCfg, if_true]
  intro c hc
  simpa using List.all_eq_true.mp h c hc

theorem exFits (n : Nat) {vs : List Int} (h : vs ≠ []) : Fits exCfg exLayout (exSnap n (vs.map exEnt)) := by
  refine ⟨by decide, clean_lit (by dsimp only [exSnap]; decide), ?_⟩
  refine ⟨⟨rfl, exText (by dsimp only [exSnap]; decide), ⟨rfl, rfl⟩, trivial⟩, ⟨rfl, exText (by dsimp only [exSnap]; decide), ⟨rfl, rfl⟩, ?_⟩,
    ⟨rfl, exText (by decide), ⟨rfl, rfl⟩, exText (by decide)⟩, ⟨rfl, exText (by decide), trivial⟩,
    ⟨rfl, exText (by dsimp only [exSnap]; decide), by simpa using h, ?_, ?_⟩, trivial⟩
  · exact .inr ⟨.inl ⟨rfl, rfl, by decide⟩, by simp, by decide⟩
  · refine ⟨by dsimp only [exSnap]; decide, ?_⟩
    intro m hm
    simp only [List.mem_cons, List.not_mem_nil, or_false] at hm
    rcases hm with rfl | rfl
    · exact ⟨by dsimp only [exSnap]; decide, exText (by dsimp only [exSnap]; decide)⟩
    · exact ⟨by dsimp only [exSnap]; decide, exText (by dsimp only [exSnap]; decide)⟩
  · intro x hx
    obtain ⟨v, _, rfl⟩ := List.mem_map.mp hx
    exact ⟨⟨rfl, ⟨rfl, rfl⟩, trivial⟩, ⟨rfl, ⟨rfl, rfl⟩, clean_lit (by decide)⟩, trivial⟩

/-- The conditions can be met, with lists of any length. -/
example : ∃ hist, hist ≠ [] ∧ (∀ s ∈ hist, Fits exCfg exLayout s) ∧
    readTable (storeAll exCfg hist fresh).2.file = some (hist.map (expect exCfg)).flatten := by
  refine ⟨[exSnap 5 ([1, -2].map exEnt), exSnap 6 ([3].map exEnt)], by simp, ?_, ?_⟩
  · intro s hs
    simp only [List.mem_cons, List.not_mem_nil, or_false] at hs
    rcases hs with rfl | rfl
    · exact exFits 5 (by simp)
    · exact exFits 6 (by simp)
  · refine (csv_table_partial (l := exLayout) (by simp) ?_).2
    intro s hs
    simp only [List.mem_cons, List.not_mem_nil, or_false] at hs
    rcases hs with rfl | rfl
    · exact exFits 5 (by simp)
    · exact exFits 6 (by simp)

/-- What the second line of that file says of the entry and of the string. -/
example : ((expect exCfg (exSnap 5 ([1, -2].map exEnt)))[1]?.map fun l =>
    (l.lookup "l_p.value".toList, l.lookup "s.value".toList, l.lookup "a.value".toList)) =
    some (some (decInt (-2)), some "x, y".toList, some (sepBy ':' [decInt 1, decInt 2])) := by
  simp [expect, exSnap, exEnt, exCfg, lineCount, MVal.len, timeCells, metricCells, valueCells,
    arrayCells, cell, entCells, arrayField, List.lookup, List.range, List.range.loop]

/-- Numbers are written as JSON numbers that are read as what they were. -/
theorem csv_numbers (v : Int) : RowJson.readJson (decInt v) = some (.num v 0) :=
  RowJson.readJson_of (RowJson.reads_int v)

/-! ## Rows -/

/-- Rows of a schema, stored one after the other, are read as the lines expected of them.
Partial: each element of an array has its own column (`expand_array`), and the first
column is the time, the producer or the instance. -/
theorem csv_rows_table_partial {cfg : Cfg} (he : cfg.expand = true) {l : List CType}
    {rows : List (List Col)} (hne : rows ≠ []) (h : ∀ r ∈ rows, RowFits cfg l r) :
    ∃ f, storeRows cfg rows true [] = some f ∧
      readTable f = some (rows.map (expectRow cfg)) := by
  cases rows with
  | nil => exact absurd rfl hne
  | cons r rows =>
    obtain ⟨x, hx, hL⟩ := row_header (h r (by simp))
    obtain ⟨y, hy, hM⟩ := row_line he (h r (by simp))
    have e : storeRow cfg r true [] = some ('#' :: x ++ '\n' :: (y ++ ['\n'])) := by
      simp [storeRow, hx, hy]
    obtain ⟨z, hz, hr⟩ := rows_next he rows ('#' :: x ++ '\n' :: (y ++ ['\n']))
      fun q hq => h q (by simp [hq])
    refine ⟨_, by rw [storeRows, e]; exact hz, ?_⟩
    have hf : '#' :: x ++ '\n' :: (y ++ ['\n']) ++ z = '#' :: x ++ '\n' :: (y ++ '\n' :: z) := by
      simp
    rw [hf]
    refine table_of hL ?_ ?_
    · rw [hM, hr]; rfl
    · intro line hl
      obtain ⟨q, hq, rfl⟩ := List.mem_map.mp hl
      exact cols_names (h q hq).1

/-- The default configuration. -/
def exRowCfg : Cfg :=
  { udata := false, ietf := false, expand := true, sep := ':', lq := '"', rq := '"', msec := true }

def exRow (sec : Nat) (v : Int) : List Col :=
  [⟨"timestamp".toList, some .time, 0, .ts sec 1500⟩,
   ⟨"producer".toList, some .producer, 0, .str 6 "node1".toList⟩,
   ⟨"v".toList, none, 0, .int .s32 v⟩, ⟨"a".toList, none, 0, .ints .u8 [1, 2]⟩]

def exRowLayout : List CType :=
  [⟨"timestamp".toList, some .time, ⟨.ts, 1⟩⟩, ⟨"producer".toList, some .producer, ⟨.str, 6⟩⟩,
   ⟨"v".toList, none, ⟨.int .s32, 1⟩⟩, ⟨"a".toList, none, ⟨.ints .u8, 2⟩⟩]

theorem exRowFits (sec : Nat) (v : Int) : RowFits exRowCfg exRowLayout (exRow sec v) := by
  have ok : ∀ t : List Char, Clean t → TextOk exRowCfg t := fun t h => h.text
  refine ⟨⟨⟨rfl, rfl, ⟨rfl, rfl⟩, ok _ (clean_lit (by dsimp only [exSnap]; decide)), trivial, rfl⟩,
    ⟨rfl, rfl, ⟨rfl, rfl⟩, ok _ (clean_lit (by decide)), ok _ (clean_lit (by decide)), rfl⟩,
    ⟨rfl, rfl, ⟨rfl, rfl⟩, ok _ (clean_lit (by dsimp only [exSnap]; decide)), trivial, by simp [Prim.tag], by simp [Prim.tag]⟩,
    ⟨rfl, rfl, ⟨rfl, rfl⟩, ok _ (clean_lit (by decide)), .inl rfl, by simp [Prim.tag], by simp [Prim.tag]⟩,
    trivial⟩, _, _, rfl, by simp⟩

example : ∃ f, storeRows exRowCfg [exRow 1 5, exRow 2 (-5)] true [] = some f ∧
    readTable f = some ([exRow 1 5, exRow 2 (-5)].map (expectRow exRowCfg)) := by
  refine csv_rows_table_partial rfl (l := exRowLayout) (by simp) ?_
  intro r hr
  simp only [List.mem_cons, List.not_mem_nil, or_false] at hr
  rcases hr with rfl | rfl
  · exact exRowFits 1 5
  · exact exRowFits 2 (-5)

/-! ## Lists -/

/-- The first list of a set is empty. -/
inductive FirstEmpty : List Metric → Prop
  | here {m : Metric} {ms : List Metric} : m.val = .list [] → FirstEmpty (m :: ms)
  | there {m : Metric} {ms : List Metric} : m.val.len = none → FirstEmpty ms → FirstEmpty (m :: ms)

theorem firstEmpty_pass {cfg : Cfg} {ms : List Metric} (h : FirstEmpty ms) (n lidx : Nat) :
    ∀ p : Pass, ∃ t, passMetrics cfg n lidx ms p = some { p with text := t } := by
  induction h with
  | here hm => intro p; exact ⟨p.text, by simp [passMetrics, hm]⟩
  | @there m ms hm _ ih =>
    intro p
    cases hv : m.val with
    | prim v =>
      obtain ⟨t, ht⟩ := ih { p with text := p.text ++ primText cfg m.udata v }
      exact ⟨t, by simp only [passMetrics, hv]; exact ht⟩
    | recType =>
      obtain ⟨t, ht⟩ := ih p
      exact ⟨t, by simp only [passMetrics, hv]; exact ht⟩
    | list es => rw [hv] at hm; simp [MVal.len] at hm

/-- Once a set with a list has been stored, storing a set of which the list is empty does
not end, however long it is waited for; lines are written all the while. -/
theorem csv_empty_list_defect {cfg : Cfg} {s : Snap} (h : FirstEmpty s.metrics) :
    (∀ fuel text idx, passes cfg 1 s fuel text idx 0 = .hang) ∧
    ∀ hd : Handle, hd.numLists = some 1 → hd.lents = true → (store cfg s hd).1 = .hang := by
  have a : ∀ fuel text idx, passes cfg 1 s fuel text idx 0 = .hang := by
    intro fuel
    induction fuel with
    | zero => intro text idx; rfl
    | succ fuel ih =>
      intro text idx
      obtain ⟨t, ht⟩ := firstEmpty_pass (cfg := cfg) h 1 0
        { text := text ++ timeJobApp cfg s, idx := idx, done := 0 }
      rw [passes, ht]
      simp only [show (0 : Nat) < 1 by omega, if_true]
      exact ih _ _
  refine ⟨a, ?_⟩
  intro hd h1 h2
  simp [store, h1, h2, writeSet, setLines, a]

/-- A history where this happens: a list that becomes empty. -/
example : (storeAll exCfg [exSnap 5 ([1].map exEnt), exSnap 6 []] fresh).1 = [.stored, .hang] := by
  have h1 := store_first (exFits 5 (vs := [1]) (by simp))
  have hd : FirstEmpty (exSnap 6 []).metrics :=
    .there rfl (.there rfl (.there rfl (.there rfl (.here rfl))))
  have h2 := (csv_empty_list_defect (cfg := exCfg) hd).2
    (store exCfg (exSnap 5 ([1].map exEnt)) fresh).2 (by rw [h1]; rfl) (by rw [h1])
  simp only [storeAll, h2]
  rw [h1]

/-- If the list is empty in the first set that is stored, storing the second ends the
program. -/
theorem csv_first_empty_defect {cfg : Cfg} {s s' : Snap} (h : FirstEmpty s.metrics) :
    (storeAll cfg [s, s'] fresh).1 = [.skipped, .crash] := by
  have a : countLists 0 s.metrics = (1, some .skipped) := by
    generalize s.metrics = ms at h
    induction h with
    | here hm => simp [countLists, hm]
    | @there m ms hm _ ih =>
      cases hv : m.val with
      | prim v => simpa [countLists, hv] using ih
      | recType => simpa [countLists, hv] using ih
      | list es => rw [hv] at hm; simp [MVal.len] at hm
  simp [storeAll, store, fresh, a]

example : FirstEmpty (exSnap 6 []).metrics :=
  .there rfl (.there rfl (.there rfl (.there rfl (.here rfl))))

theorem skipped_all (cfg : Cfg) {h : Handle} {n : Nat} (hn : h.numLists = some n) (h1 : n > 1) :
    ∀ hist : List Snap, storeAll cfg hist h = (hist.map fun _ => .skipped, h)
  | [] => rfl
  | s :: hist => by
    have e : store cfg s h = (.skipped, h) := by simp [store, hn, h1]
    rw [storeAll, e]
    simp [skipped_all cfg hn h1 hist]

/-- Nothing of sets with two lists is stored; after the first, `store` says that it was
(it returns 0). -/
theorem csv_two_lists {cfg : Cfg} {s : Snap} (h1 : 2 ≤ listsOf s.metrics)
    (h2 : ∀ m ∈ s.metrics, m.val.len ≠ some 0) (hist : List Snap) :
    (storeAll cfg (s :: hist) fresh).1 = .refused :: hist.map (fun _ => .skipped) ∧
    (storeAll cfg (s :: hist) fresh).2.file = [] := by
  have a : ∀ (ms : List Metric) (n : Nat), n ≤ 1 → 2 ≤ n + listsOf ms →
      (∀ m ∈ ms, m.val.len ≠ some 0) → countLists n ms = (2, some .refused) := by
    intro ms
    induction ms with
    | nil => intro n hn h _; simp [listsOf] at h; omega
    | cons m ms ih =>
      intro n hn h hp
      have e : listsOf (m :: ms) = m.val.lists + listsOf ms := by simp [listsOf]
      have hm := hp m (by simp)
      have hs : ∀ x ∈ ms, x.val.len ≠ some 0 := fun x hx => hp x (by simp [hx])
      rw [e] at h
      unfold countLists
      cases hv : m.val with
      | list es =>
        rw [hv] at h hm
        simp only [MVal.lists] at h
        have hne : es ≠ [] := by
          intro h0; subst h0; simp [MVal.len] at hm
        by_cases h1 : n = 1
        · subst h1; simp
        · have h0 : n = 0 := by omega
          subst h0
          simp only [if_neg (show ¬ (0 + 1 > 1) by omega), if_neg hne]
          exact ih 1 (by omega) (by omega) hs
      | prim p =>
        rw [hv] at h
        simp only [MVal.lists] at h
        exact ih n hn (by omega) hs
      | recType =>
        rw [hv] at h
        simp only [MVal.lists] at h
        exact ih n hn (by omega) hs
  have b := a s.metrics 0 (by omega) (by omega) h2
  have e : store cfg s fresh = (.refused, { fresh with numLists := some 2 }) := by
    simp [store, fresh, b]
  rw [storeAll, e]
  have c := skipped_all cfg (h := { fresh with numLists := some 2 }) (n := 2) rfl (by omega) hist
  rw [c]
  exact ⟨rfl, rfl⟩

/-- A set with two lists. -/
example : 2 ≤ listsOf [⟨"a".toList, 0, .list [exEnt 1]⟩, ⟨"b".toList, 0, .list [exEnt 1]⟩] := by
  decide

/-! ## Where tables are not as expected

The configuration here is without quotes and user data. -/

def plainCfg : Cfg :=
  { udata := false, ietf := false, expand := true, sep := ':', lq := '"', rq := '"', msec := true }

def snapOf (ms : List Metric) : Snap := ⟨0, 0, "p".toList, ms⟩

/-- Strings of different size in a list: the header has no end, and the first line for
the set becomes part of it. -/
theorem csv_mixed_list_defect :
    ∃ s, (storeAll plainCfg [s] fresh).1 = [.stored] ∧
      readTable (storeAll plainCfg [s] fresh).2.file = none ∧ (expect plainCfg s).length = 2 :=
  ⟨snapOf [⟨"l".toList, 0, .list [.prim (.str 2 "a".toList), .prim (.str 3 "bc".toList)]⟩],
    by decide +kernel, by decide +kernel, by decide +kernel⟩

/-- Records of different types in a list: lines are longer or shorter than the header. -/
theorem csv_mixed_records_defect :
    ∃ s, (storeAll plainCfg [s] fresh).1 = [.stored] ∧
      readTable (storeAll plainCfg [s] fresh).2.file = none :=
  ⟨snapOf [⟨"l".toList, 0, .list [.record [("x".toList, .int .u8 1)],
      .record [("y".toList, .int .u8 1), ("z".toList, .int .u8 2)]]⟩],
    by decide +kernel, by decide +kernel⟩

/-- A comma in a string, without `ietfcsv`, and a quote in a string, with it. -/
theorem csv_quote_defect :
    (∃ s, (storeAll plainCfg [s] fresh).1 = [.stored] ∧
      readTable (storeAll plainCfg [s] fresh).2.file = none) ∧
    ∃ s, (storeAll { plainCfg with ietf := true } [s] fresh).1 = [.stored] ∧
      readTable (storeAll { plainCfg with ietf := true } [s] fresh).2.file = none :=
  ⟨⟨snapOf [⟨"s".toList, 0, .prim (.str 4 "a,b".toList)⟩], by decide +kernel, by decide +kernel⟩,
   ⟨snapOf [⟨"s".toList, 0, .prim (.str 4 "a\"b".toList)⟩], by decide +kernel, by decide +kernel⟩⟩

/-- Arrays in one field: those of signed 64-bit numbers do not have the separator and the
quotes asked for; of an empty array there is no field but a character at the end of the
field before it. -/
theorem csv_array_defect :
    (∃ s, readTable (storeAll { plainCfg with expand := false } [s] fresh).2.file ≠
        some (expect { plainCfg with expand := false } s) ∧
      ∀ k, k ≠ IKind.s64 → ∃ s', readTable (storeAll { plainCfg with expand := false } [s'] fresh).2.file =
        some (expect { plainCfg with expand := false } s') ∧
        s.metrics.map (·.val) = [.prim (.ints .s64 [1, 2])] ∧
        s'.metrics.map (·.val) = [.prim (.ints k [1, 2])]) ∧
    ∃ s, readTable (storeAll { plainCfg with expand := false } [s] fresh).2.file = none := by
  refine ⟨⟨snapOf [⟨"a".toList, 0, .prim (.ints .s64 [1, 2])⟩], by decide +kernel, ?_⟩,
    snapOf [⟨"a".toList, 0, .prim (.ints .u8 [])⟩], by decide +kernel⟩
  intro k hk
  refine ⟨snapOf [⟨"a".toList, 0, .prim (.ints k [1, 2])⟩], ?_, rfl, rfl⟩
  revert hk
  cases k <;> decide +kernel

/-- Long names: two members of a record come to have one name. -/
theorem csv_long_name_defect :
    ∃ s, (readTable (storeAll plainCfg [s] fresh).2.file).map (fun t => t.map fun l =>
        (l.map (·.1)).eraseDups.length) = some [5] ∧
      (expect plainCfg s).map (fun l => (l.map (·.1)).eraseDups.length) = [6] :=
  ⟨snapOf [⟨List.replicate 80 'l', 0, .list [.record
      [("0123456789012345678901".toList, .int .u8 1),
       ("0123456789012345678902".toList, .int .u8 2)]]⟩],
    by decide +kernel, by decide +kernel⟩

/-- Rows: if the first column is a metric the header has an empty name before it; arrays
have a name for each element only with `expand_array`, but always a field for each; and
the names of the elements of an array in the first column are not separated. -/
theorem csv_rows_first_defect :
    (∃ r f, storeRows plainCfg [r] true [] = some f ∧ readTable f = none ∧
      r.map (·.val) = [.int .u8 1]) ∧
    (∃ r f, storeRows { plainCfg with expand := false } [r] true [] = some f ∧
      readTable f = none ∧ r.map (·.val) = [.ts 0 0, .ints .u8 [1, 2]]) ∧
    (∃ r f, storeRows plainCfg [r] true [] = some f ∧ readTable f = none ∧
      r.map (·.val) = [.ints .u8 [1, 2]]) :=
  ⟨⟨[⟨"v".toList, none, 0, .int .u8 1⟩], _, rfl, by decide +kernel, rfl⟩,
   ⟨[⟨"t".toList, some .time, 0, .ts 0 0⟩, ⟨"a".toList, none, 0, .ints .u8 [1, 2]⟩], _, rfl,
     by decide +kernel, rfl⟩,
   ⟨[⟨"a".toList, none, 0, .ints .u8 [1, 2]⟩], _, rfl, by decide +kernel, rfl⟩⟩

/-- Rows of two schemas with one name and different columns go to one file, under the
header of the first: the handle is found by the name of the schema alone,
store_csv.c:1784-1800. -/
theorem csv_rows_schemas_defect :
    ∃ r r' f, RowFits exRowCfg exRowLayout r ∧
      storeRows exRowCfg [r, r'] true [] = some f ∧ readTable f = none :=
  ⟨exRow 1 5, [⟨"timestamp".toList, some .time, 0, .ts 1 0⟩], _, exRowFits 1 5, rfl,
    by decide +kernel⟩

end Verif.Csv
