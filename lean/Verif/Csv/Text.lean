import Verif.Csv.Read

/-! # Values and headers as fields -/

namespace Verif.Csv

theorem okMsec (cfg : Cfg) : TextOk cfg "Time_msec".toList := (clean_lit (by decide)).text
theorem okTime (cfg : Cfg) : TextOk cfg "Time".toList := (clean_lit (by decide)).text
theorem okUsec (cfg : Cfg) : TextOk cfg "Time_usec".toList := (clean_lit (by decide)).text
theorem okProducer (cfg : Cfg) : TextOk cfg "ProducerName".toList := (clean_lit (by decide)).text
theorem okIdx (cfg : Cfg) : TextOk cfg "_entry_idx".toList := (clean_lit (by decide)).text
theorem lenIdx : "_entry_idx".toList.length = 10 := rfl
theorem okUnder (cfg : Cfg) : TextOk cfg ['_'] := (clean_lit (by decide)).text
theorem dotClean : Clean ['.'] := clean_lit (by decide)

open RowJson (IKind FKind dec decInt dec6 digit)

theorem tail_cell {cfg : Cfg} {t f : List Char} (u : Nat) (n : List Char) (h : Rd t f) :
    Tail (udataText cfg u ++ ',' :: t) ((cell cfg u n f).map (·.2)) := by
  unfold udataText cell
  split
  · exact Tail.cons (rd_dec u) (Tail.one h)
  · exact Tail.one h

theorem tail_cell_names {cfg : Cfg} {n : List Char} (u : Nat) (f : List Char) (h : TextOk cfg n) :
    Tail (if cfg.udata then
        ',' :: (wsqt cfg ++ n ++ ".userdata".toList ++ wsqt cfg) ++
          ',' :: (wsqt cfg ++ n ++ ".value".toList ++ wsqt cfg)
      else ',' :: (wsqt cfg ++ n ++ wsqt cfg)) ((cell cfg u n f).map (·.1)) := by
  have hu : TextOk cfg ".userdata".toList := (clean_lit (by decide)).text
  have hv : TextOk cfg ".value".toList := (clean_lit (by decide)).text
  unfold cell
  split
  · have a := rd_wsqt (textOk_append h hu)
    have b := rd_wsqt (textOk_append h hv)
    rw [← List.append_assoc (wsqt cfg)] at a b
    exact Tail.cons a (Tail.one b)
  · exact Tail.one (rd_wsqt h)

theorem sepBy_cons (c : Char) (t : List Char) (l : List (List Char)) :
    sepBy c (t :: l) = t ++ (l.map fun u => c :: u).flatten := by
  induction l generalizing t with
  | nil => simp [sepBy]
  | cons u l ih => rw [sepBy, ih u]; simp; exact fun h => absurd h (by simp)

theorem sepBy_mem {c d : Char} : ∀ {l : List (List Char)}, d ∈ sepBy c l → d = c ∨ ∃ t ∈ l, d ∈ t
  | [], h => by simp [sepBy] at h
  | t :: l, h => by
    rw [sepBy_cons] at h
    rcases List.mem_append.mp h with h | h
    · exact .inr ⟨t, by simp, h⟩
    · simp only [List.mem_flatten, List.mem_map] at h
      obtain ⟨_, ⟨u, hu, rfl⟩, hd⟩ := h
      rcases List.mem_cons.mp hd with rfl | hd
      · exact .inl rfl
      · exact .inr ⟨u, by simp [hu], hd⟩

theorem packed_rd {cfg : Cfg} {l : List (List Char)} (ha : ArrayOk cfg) (hne : l ≠ [])
    (hl : ∀ t ∈ l, Clean t) :
    ∃ t, packed cfg.lq cfg.sep cfg.rq l = ',' :: t ∧ Rd t (arrayField cfg l) := by
  cases l with
  | nil => exact absurd rfl hne
  | cons t l =>
    refine ⟨cfg.lq :: sepBy cfg.sep (t :: l) ++ [cfg.rq], ?_, ?_⟩
    · rw [sepBy_cons]; simp [packed]
    · unfold arrayField
      rcases ha with ⟨h1, h2, h3⟩ | h
      · rw [if_pos h1, h1, h2]
        refine rd_quoted ?_
        intro c hc
        rcases sepBy_mem hc with rfl | ⟨u, hu, hc⟩
        · exact h3
        · exact (hl u hu c hc).2.2
      · have hq := h cfg.lq (by simp)
        rw [if_neg hq.2.2]
        refine rd_plain ?_
        intro c hc
        simp only [List.cons_append, List.mem_cons, List.mem_append, List.not_mem_nil,
          or_false] at hc
        rcases hc with rfl | hc | rfl
        · exact hq
        · rcases sepBy_mem hc with rfl | ⟨u, hu, hc⟩
          · exact h _ (by simp)
          · exact hl u hu c hc
        · exact h _ (by simp)

theorem tail_expanded {cfg : Cfg} (u : Nat) (n : List Char) {l : List (List Char)}
    (hl : ∀ t ∈ l, Clean t) :
    Tail (expanded cfg u l)
      (((l.zipIdx.map fun p => cell cfg u (n ++ dec p.2) p.1).flatten).map (·.2)) := by
  have e : expanded cfg u l =
      (l.zipIdx.map fun p => udataText cfg u ++ ',' :: p.1).flatten := by
    unfold expanded
    have : l = l.zipIdx.map (·.1) := by simp
    conv => lhs; rw [this]
    rw [List.map_map]
    rfl
  rw [e, List.map_flatten, List.map_map]
  refine Tail.flatten _ _ _ ?_
  intro p hp
  exact tail_cell u _ (rd_plain (hl _ (List.fst_mem_of_mem_zipIdx hp)))

theorem tail_array {cfg : Cfg} (u : Nat) (n : List Char) {l : List (List Char)}
    (hl : ∀ t ∈ l, Clean t) (h : cfg.expand = true ∨ (ArrayOk cfg ∧ l ≠ [])) :
    Tail (if cfg.expand then expanded cfg u l
      else udataText cfg u ++ packed cfg.lq cfg.sep cfg.rq l)
      ((arrayCells cfg u n l).map (·.2)) := by
  unfold arrayCells
  split
  · exact tail_expanded u n hl
  · next he =>
    rcases h with h | ⟨h1, h2⟩
    · exact absurd h he
    · obtain ⟨t, e, hr⟩ := packed_rd h1 h2 hl
      rw [e]
      exact tail_cell u n hr

theorem map_clean (vs : List Int) : ∀ t ∈ vs.map decInt, Clean t := by
  intro t ht
  obtain ⟨v, _, rfl⟩ := List.mem_map.mp ht
  exact decInt_clean v

theorem tail_empty {cfg : Cfg} (u : Nat) (n : List Char) :
    Tail ((if cfg.udata then [','] else []) ++ [','])
      (((cell cfg u n []).map fun p => (p.1, ([] : List Char))).map (·.2)) := by
  have hr : Rd [] [] := rd_plain (by intro c hc; simp at hc)
  unfold cell
  split
  · exact Tail.cons hr (Tail.one hr)
  · exact Tail.one hr

/-- The fields of a value are read as the values of its columns. -/
theorem tail_prim {cfg : Cfg} {p : Prim} (u : Nat) (n : List Char) (h : PrimOk cfg p) :
    Tail (primText cfg u p) ((valueCells cfg u n p).map (·.2)) := by
  cases p with
  | int k v => exact tail_cell u n (rd_decInt v)
  | flt k t => exact tail_cell u n (rd_plain h)
  | chr c => exact tail_cell u n (rd_plain h)
  | str k s => exact tail_cell u n (rd_wsqt h)
  | ints k vs =>
    have ha : cfg.expand = true ∨ (ArrayOk cfg ∧ vs.map decInt ≠ []) := by
      rcases h with h | ⟨h1, h2, _⟩
      · exact .inl h
      · exact .inr ⟨h1, by simpa using h2⟩
    have := tail_array u n (map_clean vs) ha
    simp only [primText, valueCells]
    by_cases he : cfg.expand
    · simpa only [he, if_true] using this
    · rcases h with h | ⟨_, _, hk⟩
      · exact absurd h he
      · rw [if_neg he] at this ⊢
        rw [if_neg hk]
        exact this
  | flts k l => exact tail_array u n h.1 h.2
  | ts a b => exact tail_empty u n
  | other => exact tail_empty u n

theorem tail_many {cfg : Cfg} {n : List Char} (u : Nat) (l : List (List Char)) (h : TextOk cfg n) :
    Tail (((List.range l.length).map fun j =>
      if cfg.udata then
        [','] ++ (wsqt cfg ++ n ++ dec j ++ ".userdata".toList ++ wsqt cfg) ++
          ',' :: (wsqt cfg ++ n ++ dec j ++ ".value".toList ++ wsqt cfg)
      else [','] ++ (wsqt cfg ++ n ++ dec j ++ wsqt cfg)).flatten)
      (((l.zipIdx.map fun p => cell cfg u (n ++ dec p.2) p.1).flatten).map (·.1)) := by
  have e : List.range l.length = l.zipIdx.map (·.2) := by
    rw [List.range_eq_range']; simp
  rw [e, List.map_map, List.map_flatten, List.map_map]
  refine Tail.flatten _ _ _ ?_
  intro p _
  have := tail_cell_names u p.1 (textOk_append h (dec_clean p.2).text (cfg := cfg))
  simpa only [Function.comp, List.append_assoc, List.cons_append, List.nil_append] using this

/-- The header of a value is read as the names of its columns. -/
theorem tail_header {cfg : Cfg} {n : List Char} {p : Prim} (u : Nat) (h : TextOk cfg n) :
    Tail (primHeader cfg n p.tag p.count [',']) ((valueCells cfg u n p).map (·.1)) := by
  have hcell := fun f => tail_cell_names u f h
  cases p with
  | int k v => exact hcell _
  | flt k t => exact hcell _
  | chr c => exact hcell _
  | str k s => exact hcell _
  | ints k vs =>
    simp only [primHeader, Prim.tag, Prim.count, valueCells, arrayCells]
    split
    · have := tail_many u (vs.map decInt) h
      rw [List.length_map] at this
      exact this
    · exact hcell _
  | flts k l =>
    simp only [primHeader, Prim.tag, Prim.count, valueCells, arrayCells]
    split
    · exact tail_many u l h
    · exact hcell _
  | ts a b =>
    have := hcell []
    simp only [valueCells, List.map_map]
    exact this
  | other =>
    have := hcell []
    simp only [valueCells, List.map_map]
    exact this

theorem time_line (cfg : Cfg) (sec usec : Nat) {x : List Char} {fs : List (List Char)}
    (h : Tail x fs) :
    Line (timeText cfg sec usec ++ x) ((timeCells cfg sec usec).map (·.2) ++ fs) := by
  unfold timeText timeCells
  split
  · simpa using line_of (rd_dec _) (Tail.cons (rd_dec (usec % 1000)) h)
  · have hc : Clean (dec sec ++ '.' :: dec6 usec) :=
      clean_append (dec_clean _) (clean_append (a := ['.']) (clean_lit (by decide)) (dec6_clean _))
    simpa using line_of (rd_plain hc) (Tail.cons (rd_dec usec) h)

theorem timeNames_line (cfg : Cfg) (sec usec : Nat) {x : List Char} {fs : List (List Char)}
    (h : Tail x fs) :
    Line ((wsqt cfg ++ (if cfg.msec then "Time_msec".toList else "Time".toList) ++ wsqt cfg) ++
      ',' :: (wsqt cfg ++ "Time_usec".toList ++ wsqt cfg) ++ x)
      ((timeCells cfg sec usec).map (·.1) ++ fs) := by
  have a : TextOk cfg "Time_msec".toList := (clean_lit (by decide)).text
  have b : TextOk cfg "Time".toList := (clean_lit (by decide)).text
  have c : TextOk cfg "Time_usec".toList := (clean_lit (by decide)).text
  unfold timeCells
  split
  · have := line_of (rd_wsqt a) (Tail.cons (rd_wsqt c) h)
    rw [← List.append_assoc] at this
    exact this
  · have := line_of (rd_wsqt b) (Tail.cons (rd_wsqt c) h)
    rw [← List.append_assoc] at this
    exact this

end Verif.Csv
