import Verif.RowJson.Avro

/-!
# C61: rows as JSON

The text made of a row is JSON, and read as JSON it says what is in the row.
-/

namespace Verif.RowJson

/-! ## Examples -/

/-- A row. -/
def exCols : List Col :=
  [⟨"timestamp".toList, .ts 1700000000 42⟩, ⟨"node".toList, .str "n1/a b".toList⟩,
    ⟨"temp".toList, .int .s32 (-7)⟩, ⟨"loads".toList, .flts .d64 ["0.5".toList, "1e+30".toList]⟩,
    ⟨"ids".toList, .ints .u64 [1, 18446744073709551615]⟩, ⟨"none".toList, .ints .u8 []⟩,
    ⟨"flag".toList, .chr 'y'⟩, ⟨"f".toList, .flt .f32 "-1.25e-10".toList⟩]

theorem exPrintable : ∀ c ∈ exCols, Printable c.val := by
  intro c hc
  simp only [exCols, List.mem_cons, List.not_mem_nil, or_false] at hc
  rcases hc with rfl | rfl | rfl | rfl | rfl | rfl | rfl | rfl
  · exact ⟨by decide, by decide⟩
  · exact ⟨plain_of_all (by decide), by unfold GoodLen; decide⟩
  · show (-7 : Int).natAbs < _; decide
  · intro t ht
    simp only [List.mem_cons, List.not_mem_nil, or_false] at ht
    rcases ht with rfl | rfl
    · exact ⟨⟨_, rfl⟩, by decide⟩
    · exact ⟨⟨_, rfl⟩, by decide⟩
  · intro v hv
    simp only [List.mem_cons, List.not_mem_nil, or_false] at hv
    rcases hv with rfl | rfl <;> decide
  · intro v hv; simp at hv
  · exact ⟨by decide, by decide, by decide⟩
  · exact ⟨⟨_, rfl⟩, by decide⟩

/-! ## What is printed is read back -/

/-- The JSON array of a row has the values of its columns, in order. -/
theorem array_reads_back_partial {cols : List Col} (h : ∀ c ∈ cols, Printable c.val) :
    ∃ t, toArray cols = .ok t ∧ readJson t = some (.arr (cols.map fun c => jval c.val)) := by
  refine ⟨_, toArray_ok h, readJson_of ?_⟩
  have := reads_arr (l := cols.map fun c => (colText c.val, jval c.val)) (by
    intro p hp
    obtain ⟨c, hc, rfl⟩ := List.mem_map.mp hp
    exact col_reads (h c hc)) (by
    intro p hp
    obtain ⟨c, hc, rfl⟩ := List.mem_map.mp hp
    exact col_starts (h c hc))
  simpa [List.map_map, Function.comp_def] using this

example : ∃ t, toArray exCols = .ok t ∧
    readJson t = some (.arr (exCols.map fun c => jval c.val)) :=
  array_reads_back_partial exPrintable

/-- What the example says. -/
example : jval (.ts 1700000000 42) = .num 1700000000000042 (-6) := by
  simp [jval]

/-- The JSON object of a row has its columns by name, in order. -/
theorem object_reads_back_partial {cols : List Col} (h : ∀ c ∈ cols, Printable c.val)
    (hn : ∀ c ∈ cols, Plain c.name ∧ GoodLen (c.name.length + 3)) :
    ∃ t, toObject cols = .ok t ∧
      readJson t = some (.obj (cols.map fun c => (c.name, jval c.val))) := by
  refine ⟨_, toObject_ok h fun c hc => (hn c hc).2, readJson_of ?_⟩
  have := reads_obj (l := cols.map fun c => ((c.name, colText c.val), jval c.val)) (by
    intro p hp
    obtain ⟨c, hc, rfl⟩ := List.mem_map.mp hp
    exact ⟨(hn c hc).1, col_reads (h c hc)⟩)
  simpa [List.map_map, Function.comp_def] using this

theorem exNames : ∀ c ∈ exCols, Plain c.name ∧ GoodLen (c.name.length + 3) := by
  intro c hc
  have h1 : exCols.all (fun c => c.name.all
      (fun c => 32 ≤ c.toNat && c != '"' && c != '\\') && c.name.length < 100) = true := by decide
  have h2 := List.all_eq_true.mp h1 c hc
  simp only [Bool.and_eq_true, decide_eq_true_eq] at h2
  exact ⟨plain_of_all h2.1, goodLen_small (by omega) (by omega)⟩

example : ∃ t, toObject exCols = .ok t ∧
    readJson t = some (.obj (exCols.map fun c => (c.name, jval c.val))) :=
  object_reads_back_partial exPrintable exNames

/-- Rows whose texts are the same say the same. -/
theorem object_injective_partial {cols cols' : List Col}
    (h : ∀ c ∈ cols, Printable c.val) (h' : ∀ c ∈ cols', Printable c.val)
    (hn : ∀ c ∈ cols, Plain c.name ∧ GoodLen (c.name.length + 3))
    (hn' : ∀ c ∈ cols', Plain c.name ∧ GoodLen (c.name.length + 3))
    (he : toObject cols = toObject cols') :
    (cols.map fun c => (c.name, jval c.val)) = cols'.map fun c => (c.name, jval c.val) := by
  obtain ⟨t, h1, h2⟩ := object_reads_back_partial h hn
  obtain ⟨t', h1', h2'⟩ := object_reads_back_partial h' hn'
  rw [h1, h1', Out.ok.injEq] at he
  subst he
  rw [h2] at h2'
  simpa using h2'

/-- The Avro schema of a row: a record with a field of the right type for each column. -/
theorem avro_reads_back_partial {schema : List Char} {cols : List Col} (hs : Plain schema)
    (hl : schema.length ≤ 8000) (hc : ∀ c ∈ cols, c.val ≠ .other ∧ c.name.length ≤ 8000) :
    ∃ t, toAvro schema cols = .ok t ∧ readJson t = some (avroSchema schema cols) := by
  obtain ⟨t, h1, h2⟩ := toAvro_ok hs hl hc
  exact ⟨t, h1, readJson_of h2⟩

example : ∃ t, toAvro "node".toList exCols = .ok t ∧
    readJson t = some (avroSchema "node".toList exCols) := by
  refine avro_reads_back_partial (plain_of_all (by decide)) (by decide) fun c hc => ?_
  have h1 : exCols.all (fun c => decide (c.val ≠ .other) && decide (c.name.length ≤ 8000)) =
    true := by decide
  have h2 := List.all_eq_true.mp h1 c hc
  simpa using h2

/-- Whatever is printed, of any columns, is the texts of the columns between brackets with
commas, none cut short. -/
theorem array_text {cols : List Col} {t : List Char} (h : toArray cols = .ok t) :
    ∃ ts : List (List Char), ts.length = cols.length ∧
      (∀ (i : Nat) c u, cols[i]? = some c → ts[i]? = some u →
        ∃ ps : List (List Char), colPieces c.val = ps.map some ∧ u = ps.flatten) ∧
      t = '[' :: joined ts ++ [']'] := by
  obtain ⟨ps, h1, h2⟩ := printAll_ok _ _ h
  have key : ∀ (l : List Col) (post qs : List (List Char)), (l.map fun c => some [','] :: colPieces c.val).flatten ++
        post.map some = qs.map some →
      ∃ ts : List (List Char), ts.length = l.length ∧
        (∀ (i : Nat) c u, l[i]? = some c → ts[i]? = some u →
          ∃ ps : List (List Char), colPieces c.val = ps.map some ∧ u = ps.flatten) ∧
        qs.flatten = (ts.map (',' :: ·)).flatten ++ post.flatten := by
    intro l
    induction l with
    | nil =>
      intro post qs hq
      refine ⟨[], rfl, by simp, ?_⟩
      simp only [List.map_nil, List.flatten_nil, List.nil_append] at hq
      have := List.map_inj_right (f := some) (fun _ _ => Option.some.inj) |>.mp hq
      subst this
      rfl
    | cons c l ih =>
      intro post qs hq
      rw [List.map_cons, List.flatten_cons, List.append_assoc] at hq
      obtain ⟨q1, q2, rfl, hq1, hq2⟩ := List.map_eq_append_iff.mp hq.symm
      obtain ⟨ts, t1, t2, t3⟩ := ih post q2 hq2.symm
      cases q1 with
      | nil => cases hq1
      | cons x q1 =>
        simp only [List.map_cons, List.cons.injEq, Option.some.injEq] at hq1
        obtain ⟨rfl, hq1⟩ := hq1
        refine ⟨q1.flatten :: ts, by simp [t1], ?_, ?_⟩
        · intro i c' u hc hu
          cases i with
          | zero =>
            simp only [List.getElem?_cons_zero, Option.some.injEq] at hc hu
            subst hc hu
            exact ⟨q1, hq1.symm, rfl⟩
          | succ i => exact t2 i c' u (by simpa using hc) (by simpa using hu)
        · simp [t3]
  cases cols with
  | nil =>
    refine ⟨[], rfl, by simp, ?_⟩
    have : ps = [['['], [']']] :=
      (List.map_inj_right (f := some) fun _ _ => Option.some.inj).mp (by simpa [commas] using h1.symm)
    rw [h2, this]
    rfl
  | cons c l =>
    rw [List.map_cons, commas] at h1
    cases ps with
    | nil => cases h1
    | cons x ps =>
      simp only [List.map_cons, List.cons_append, List.cons.injEq, Option.some.injEq,
        List.append_assoc] at h1
      obtain ⟨rfl, h1⟩ := h1
      obtain ⟨q1, q2, rfl, hq1, hq2⟩ := List.map_eq_append_iff.mp h1.symm
      obtain ⟨ts, t1, t2, t3⟩ := key l [[']']] q2 (by
        rw [hq2]; simp [List.map_map, Function.comp_def])
      refine ⟨q1.flatten :: ts, by simp [t1], ?_, ?_⟩
      · intro i c' u hc hu
        cases i with
        | zero =>
          simp only [List.getElem?_cons_zero, Option.some.injEq] at hc hu
          subst hc hu
          exact ⟨q1, hq1.symm, rfl⟩
        | succ i => exact t2 i c' u (by simpa using hc) (by simpa using hu)
      · rw [h2]
        simp [strbufStr, joined, t3]

/-- A column that is a list or a record: an error, nothing is printed. -/
theorem other_einval {cols cols' : List Col} {n : List Char}
    (h : ∀ c ∈ cols, Printable c.val) :
    toArray (cols ++ ⟨n, .other⟩ :: cols') = .einval := by
  have key : ∀ (ps : List (List Char)) (l : List (Option (List Char))) (hb : List Buf),
      (∀ p ∈ ps, GoodLen p.length) → printAll hb (ps.map some ++ none :: l) = .einval := by
    intro ps l
    induction ps with
    | nil => intros; rfl
    | cons p ps ih =>
      intro hb hg
      obtain ⟨h', hh⟩ := printf_good hb (hg p (by simp))
      rw [List.map_cons, List.cons_append, printAll, hh]
      exact ih h' fun q hq => hg q (List.mem_cons_of_mem _ hq)
  have hp : ∃ (ps : List (List Char)) (l : List (Option (List Char))),
      some ['['] :: commas ((cols ++ ⟨n, .other⟩ :: cols').map fun c => colPieces c.val) ++
        [some [']']] = ps.map some ++ none :: l ∧ ∀ p ∈ ps, GoodLen p.length := by
    have g1 := prints_one (t := ['[']) (goodLen_small (by simp) (by simp))
    have g2 := prints_one (t := [',']) (goodLen_small (by simp) (by simp))
    cases cols with
    | nil => exact ⟨[['[']], _, rfl, by simpa using goodLen_small (by simp) (by simp)⟩
    | cons c cols =>
      have h1 := prints_commas (ls := (c :: cols).map fun c => (colPieces c.val, colText c.val)) (by
        intro p hp
        obtain ⟨c, hc, rfl⟩ := List.mem_map.mp hp
        exact col_prints (h c hc))
      simp only [List.map_map, Function.comp_def] at h1
      obtain ⟨ps, e, _, hg⟩ := (g1.append h1).append g2
      refine ⟨ps, (cols'.map fun c => some [','] :: colPieces c.val).flatten ++ [some [']']], ?_, hg⟩
      rw [← e]
      simp [commas, colPieces, List.map_map, Function.comp_def]
  obtain ⟨ps, l, e, hg⟩ := hp
  rw [toArray, e]
  exact key ps l [] hg

example : toArray (exCols ++ [⟨"l".toList, .other⟩]) = .einval := other_einval exPrintable

/-- Nor does such a column get into an Avro schema. -/
theorem avro_einval {schema : List Char} {cols : List Col}
    (hl : schema.length ≤ 8000) (hc : ∀ c ∈ cols, c.name.length ≤ 8000)
    (ho : ∃ c ∈ cols, c.val = .other) : toAvro schema cols = .einval := by
  have key : ∀ (l : List (Option (List Char))) (hb : List Buf), none ∈ l →
      (∀ p, some p ∈ l → GoodLen p.length) → printAll hb l = .einval := by
    intro l
    induction l with
    | nil => intro _ h _; simp at h
    | cons p l ih =>
      intro hb hm hg
      cases p with
      | none => rfl
      | some p =>
        obtain ⟨h', hh⟩ := printf_good hb (hg p (by simp))
        rw [printAll, hh]
        exact ih h' (by simpa using hm) fun q hq => hg q (List.mem_cons_of_mem _ hq)
  have l2 := len3 schema (show "\"name\":\"".toList.length = 8 by decide)
    (show "\",".toList.length = 2 by decide)
  have hcm : ∀ x, x ∈ commas (cols.map fun c => [fieldPiece c]) →
      x = some [','] ∨ ∃ c ∈ cols, x = fieldPiece c := by
    intro x hx
    cases cols with
    | nil => simp [commas] at hx
    | cons c cols =>
      simp only [List.map_cons, commas, List.singleton_append, List.mem_cons, List.mem_flatten,
        List.map_map, List.mem_map, Function.comp_def] at hx
      rcases hx with rfl | ⟨_, ⟨d, hd, rfl⟩, hx⟩
      · exact .inr ⟨c, by simp, rfl⟩
      · simp only [List.mem_cons, List.not_mem_nil, or_false] at hx
        rcases hx with rfl | rfl
        · exact .inl rfl
        · exact .inr ⟨d, List.mem_cons_of_mem _ hd, rfl⟩
  have hno : none ∈ commas (cols.map fun c => [fieldPiece c]) := by
    obtain ⟨c, hcc, hv⟩ := ho
    have hf : fieldPiece c = none := by
      obtain ⟨n, v⟩ := c
      simp only at hv
      subst hv
      rfl
    cases cols with
    | nil => simp at hcc
    | cons d cols =>
      simp only [List.map_cons, commas, List.singleton_append, List.mem_cons, List.mem_flatten,
        List.map_map, List.mem_map, Function.comp_def]
      rcases List.mem_cons.mp hcc with rfl | hcc
      · exact .inl hf.symm
      · exact .inr ⟨_, ⟨c, hcc, rfl⟩, by simp [hf]⟩
  refine key _ _ ?_ ?_
  · refine List.mem_append_left _ ?_
    exact List.mem_cons_of_mem _ (List.mem_cons_of_mem _ (List.mem_cons_of_mem _
      (List.mem_cons_of_mem _ hno)))
  · intro p hp
    rcases List.mem_append.mp hp with hp | hp
    · rcases List.mem_cons.mp hp with hp | hp
      · cases hp; exact goodLen_small (by simp) (by simp)
      · rcases List.mem_cons.mp hp with hp | hp
        · cases hp
          rw [l2]
          clear l2
          exact goodLen_small (by omega) (by omega)
        · rcases List.mem_cons.mp hp with hp | hp
          · cases hp; exact goodLen_small (by decide) (by decide)
          · rcases List.mem_cons.mp hp with hp | hp
            · cases hp; exact goodLen_small (by decide) (by decide)
            · rcases hcm _ hp with hp | ⟨c, hcc, hp⟩
              · cases hp; exact goodLen_small (by simp) (by simp)
              · have h1 := reads_field hp.symm
                have h2 := hc c hcc
                exact goodLen_small (by omega) (by omega)
    · rw [List.mem_singleton, Option.some.injEq] at hp
      rw [hp]
      exact goodLen_small (by decide) (by decide)

example : toAvro "node".toList [⟨"l".toList, .other⟩] = .einval := by decide

/-- No buffer is overrun: what is printed into one leaves room for the NUL. -/
theorem no_overrun {h h' : List Buf} {p : List Char}
    (hs : ∀ b ∈ h, b.data.length < b.cap ∨ b.data = []) (hp : printf h p = some h') :
    ∀ b ∈ h', b.data.length < b.cap ∨ b.data = [] := printIn_sound hs hp

example : ∃ h', printf [] "abc".toList = some h' := ⟨_, rfl⟩

/-! ## What goes wrong -/

/-- The wish: every row of values is printed, and read back. -/
def AlwaysReadsBack : Prop :=
  ∀ cols : List Col, (∀ c ∈ cols, c.val ≠ .other) →
    ∃ t, toArray cols = .ok t ∧ readJson t = some (.arr (cols.map fun c => jval c.val))

/-- A piece that is not printed is not printed however long the loop goes on. -/
theorem hang_is_forever {h : List Buf} {p : List Char} (hp : printf h p = none) (f : Nat) :
    printIn f h p = none := printf_none hp f

/-- A string of 8190 characters, or 16382, and so on: memory is allocated without end. -/
theorem string_hang_defect (n s : List Char) (hs : (s.length + 2) % 8192 = 0) :
    toArray [⟨n, .str s⟩] = .hang := by
  have hp : ('"' :: s ++ ['"']).length = s.length + 2 := by simp
  have h1 : printf [] ['['] = some [⟨['['], 8192⟩] := rfl
  have h2 : printf [⟨['['], 8192⟩] ('"' :: s ++ ['"']) = none := by
    refine printIn_never (by rw [hp]; exact hs) 3 _ _ ?_
    rw [hp]
    show 8192 - 1 ≤ _
    omega
  show printAll [] [some ['['], some ('"' :: s ++ ['"']), some [']']] = .hang
  rw [printAll, h1]
  simp only
  rw [printAll, h2]

example : ((List.replicate 8190 'x').length + 2) % 8192 = 0 := by
  rw [List.length_replicate]

/-- The same for the name of a column in an object. -/
theorem name_hang_defect (n : List Char) (v : CVal) (hs : (n.length + 3) % 8192 = 0) :
    toObject [⟨n, v⟩] = .hang := by
  have hp : ('"' :: n ++ ['"', ':']).length = n.length + 3 := by simp
  have h1 : printf [] ['{'] = some [⟨['{'], 8192⟩] := rfl
  have h2 : printf [⟨['{'], 8192⟩] ('"' :: n ++ ['"', ':']) = none := by
    refine printIn_never (by rw [hp]; exact hs) 3 _ _ ?_
    rw [hp]
    show 8192 - 1 ≤ _
    omega
  have e : toObject [⟨n, v⟩] =
      printAll [] (some ['{'] :: some ('"' :: n ++ ['"', ':']) :: (colPieces v ++ [some ['}']])) := by
    simp [toObject, commas]
  rw [e, printAll, h1]
  simp only
  rw [printAll, h2]

/-- Strings are not escaped: a string with quotes and a comma is printed like two
strings, so that a reader sees a column too many. -/
theorem quote_defect (n a b : List Char) (ha : Plain a) (hb : Plain b)
    (hl : a.length + b.length ≤ 8000) :
    ∃ t, toArray [⟨n, .str (a ++ '"' :: ',' :: '"' :: b)⟩] = .ok t ∧
      toArray [⟨n, .str a⟩, ⟨n, .str b⟩] = .ok t ∧
      readJson t = some (.arr [.str a, .str b]) := by
  obtain ⟨t, h1, h2⟩ := array_reads_back_partial (cols := [⟨n, .str a⟩, ⟨n, .str b⟩]) (by
    intro c hc
    simp only [List.mem_cons, List.not_mem_nil, or_false] at hc
    rcases hc with rfl | rfl
    · exact ⟨ha, goodLen_small (by omega) (by omega)⟩
    · exact ⟨hb, goodLen_small (by omega) (by omega)⟩)
  refine ⟨t, ?_, h1, h2⟩
  have g1 := prints_one (t := ['[']) (goodLen_small (by simp) (by simp))
  have g2 := prints_one (t := '"' :: (a ++ '"' :: ',' :: '"' :: b) ++ ['"'])
    (goodLen_small (by simp) (by simp; omega))
  have g3 := prints_one (t := [']']) (goodLen_small (by simp) (by simp))
  have e1 : toArray [⟨n, .str (a ++ '"' :: ',' :: '"' :: b)⟩] = _ :=
    printAll_prints ((g1.append g2).append g3)
  have e2 := toArray_ok (cols := [⟨n, .str a⟩, ⟨n, .str b⟩]) (by
    intro c hc
    simp only [List.mem_cons, List.not_mem_nil, or_false] at hc
    rcases hc with rfl | rfl
    · exact ⟨ha, goodLen_small (by omega) (by omega)⟩
    · exact ⟨hb, goodLen_small (by omega) (by omega)⟩)
  rw [h1, Out.ok.injEq] at e2
  rw [e1, e2]
  simp [joined, colText]

/-- What `printf` makes of a number that is none is not JSON. -/
theorem nan_defect (n : List Char) : ∃ t, toArray [⟨n, .flt .d64 "nan".toList⟩] = .ok t ∧
    readJson t = none := ⟨"[nan]".toList, rfl, rfl⟩

/-- Nor is a string with a line feed. -/
theorem newline_defect (n : List Char) : ∃ t, toArray [⟨n, .str "a\nb".toList⟩] = .ok t ∧
    readJson t = none := ⟨"[\"a\nb\"]".toList, rfl, rfl⟩

theorem always_reads_back_false : ¬ AlwaysReadsBack := fun h => by
  obtain ⟨t, h1, h2⟩ := h [⟨[], .flt .d64 "nan".toList⟩] (by simp)
  obtain ⟨t', h1', h2'⟩ := nan_defect []
  rw [h1, Out.ok.injEq] at h1'
  subst h1'
  rw [h2] at h2'
  cases h2'

/-- Two columns can have one name in the Avro schema: member `b` of the records of a list
`a` is column `a.b` of an as_is decomposition, and a metric can be called `a_b`. -/
theorem avro_name_defect : avroName "a.b".toList = avroName "a_b".toList := by decide

/-- Names that Avro does not allow are let through: those with a hyphen or a digit at the
start. -/
theorem avro_name_illegal_defect : avroName "0-x".toList = "0-x".toList := by decide

/-- The caller's length is right only if its upper half was zero before. -/
theorem avro_len_defect (before n : Nat) (hn : n < 2 ^ 32) :
    lenAfter before n = n ↔ before < 2 ^ 32 := by
  unfold lenAfter
  omega

end Verif.RowJson
