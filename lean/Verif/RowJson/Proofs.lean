import Verif.RowJson.Read

/-! # Proofs about rows -/

namespace Verif.RowJson

/-- Text `t` is read as `v`, whatever delimiter follows. -/
def Reads (t : List Char) (v : JVal) : Prop :=
  ∀ (n : Nat) (r : List Char), t.length + 1 ≤ n → Ends r → value n (t ++ r) = some (v, r)

/-- White space is left out only if there is some. -/
theorem skipWs_cons {c : Char} (s : List Char) (h : 32 < c.toNat) : skipWs (c :: s) = c :: s := by
  rw [skipWs, if_neg]
  rintro (rfl | rfl | rfl | rfl) <;> revert h <;> decide

theorem isDigit_toNat {c : Char} (h : c.isDigit = true) : 48 ≤ c.toNat ∧ c.toNat ≤ 57 := by
  simp only [Char.isDigit, Bool.and_eq_true, decide_eq_true_eq] at h
  have h1 := UInt32.le_iff_toNat_le.mp h.1
  have h2 := UInt32.le_iff_toNat_le.mp h.2
  exact ⟨h1, h2⟩

theorem reads_number {t : List Char} (hne : ∃ c l, t = c :: l ∧ (c = '-' ∨ c.isDigit = true))
    {v : JVal} (h : ∀ r, Ends r → number (t ++ r) = some (v, r)) : Reads t v := by
  intro n r hn hr
  obtain ⟨c, l, rfl, hc⟩ := hne
  have hc' : 45 ≤ c.toNat ∧ c.toNat ≤ 57 := by
    rcases hc with rfl | hc
    · decide
    · have := isDigit_toNat hc; omega
  obtain ⟨n, rfl⟩ : ∃ m, n = m + 1 := ⟨n - 1, by simp at hn; omega⟩
  have hr' := h r hr
  rw [List.cons_append] at hr' ⊢
  rw [value, skipWs_cons _ (by omega)]
  split
  · rename_i hx; injection hx with h1 _; rw [h1] at hc'; exact absurd hc' (by decide)
  · rename_i hx; injection hx with h1 _; rw [h1] at hc'; exact absurd hc' (by decide)
  · rename_i hx; injection hx with h1 _; rw [h1] at hc'; exact absurd hc' (by decide)
  · rename_i hx; injection hx with h1 _; rw [h1] at hc'; exact absurd hc' (by decide)
  · rename_i hx; injection hx with h1 _; rw [h1] at hc'; exact absurd hc' (by decide)
  · rename_i hx; injection hx with h1 _; rw [h1] at hc'; exact absurd hc' (by decide)
  · exact hr'

theorem dec_head (n : Nat) : ∃ c l, dec n = c :: l ∧ c.isDigit = true := by
  obtain ⟨h1, _, h3, _⟩ := dec_facts n
  cases hd : dec n with
  | nil => exact absurd hd h3
  | cons c l => exact ⟨c, l, rfl, h1 c (by rw [hd]; simp)⟩

theorem reads_int (v : Int) : Reads (decInt v) (.num v 0) := by
  refine reads_number ?_ fun r hr => number_decInt v hr
  unfold decInt
  split
  · exact ⟨_, _, rfl, .inl rfl⟩
  · obtain ⟨c, l, h, hc⟩ := dec_head v.natAbs
    exact ⟨c, l, h, .inr hc⟩

theorem reads_ts (sec : Nat) {usec : Nat} (h : usec < 1000000) :
    Reads (dec sec ++ '.' :: dec6 usec) (.num (sec * 1000000 + usec) (-6)) := by
  refine reads_number ?_ fun r hr => number_ts h hr
  obtain ⟨c, l, h, hc⟩ := dec_head sec
  exact ⟨c, l ++ '.' :: dec6 usec, by rw [h]; rfl, .inr hc⟩

theorem reads_flt {t : List Char} (h : IsNum t) : Reads t (numVal t) := by
  obtain ⟨v, hv⟩ := h
  have : numVal t = v := by rw [numVal, hv]
  rw [this]
  refine reads_number ?_ fun r hr => by simpa using number_more hr hv
  obtain ⟨c, l, h, hc⟩ := number_head hv
  exact ⟨c, l, h, hc⟩

theorem string_plain : ∀ {s : List Char}, Plain s → ∀ r, string (s ++ '"' :: r) = some (s, r)
  | [], _, r => by simp [string]
  | c :: s, h, r => by
    obtain ⟨h1, h2, h3⟩ := h c (by simp)
    have ih := string_plain (s := s) (fun c hc => h c (List.mem_cons_of_mem _ hc)) r
    rw [List.cons_append]
    unfold string
    split
    · rename_i hx; cases hx
    · rename_i hx; injection hx with h4 _; exact absurd h4 h2
    · rename_i hx; injection hx with h4 _; exact absurd h4 h3
    · rename_i hx; injection hx with h4 _; exact absurd h4 h3
    · rename_i hx
      injection hx with h4 h5
      subst h4 h5
      rw [if_neg (by rintro (h | h); omega; exact h3 h), ih]
      rfl

theorem reads_str {s : List Char} (h : Plain s) : Reads ('"' :: s ++ ['"']) (.str s) := by
  intro n r hn _
  obtain ⟨n, rfl⟩ : ∃ m, n = m + 1 := ⟨n - 1, by simp at hn; omega⟩
  have e : '"' :: s ++ ['"'] ++ r = '"' :: (s ++ '"' :: r) := by simp
  rw [e, value, skipWs_cons _ (by decide)]
  simp only
  rw [string_plain h]
  rfl

/-- Texts with commas between. -/
def joined : List (List Char) → List Char
  | [] => []
  | t :: l => t ++ (l.map (',' :: ·)).flatten

theorem joined_cons_cons (t u : List Char) (l : List (List Char)) :
    joined (t :: u :: l) = t ++ ',' :: joined (u :: l) := by
  simp [joined]

theorem elems_reads : ∀ (l : List (List Char × JVal)), l ≠ [] → (∀ p ∈ l, Reads p.1 p.2) →
    ∀ (n : Nat) (r : List Char), (joined (l.map (·.1))).length + 2 ≤ n →
    elems n (joined (l.map (·.1)) ++ ']' :: r) = some (l.map (·.2), r)
  | [], h, _, _, _, _ => absurd rfl h
  | [p], _, hp, n, r, hn => by
    obtain ⟨n, rfl⟩ : ∃ m, n = m + 1 := ⟨n - 1, by omega⟩
    have e : joined ([p].map (·.1)) = p.1 := by simp [joined]
    rw [e] at hn ⊢
    rw [elems, hp p (by simp) n (']' :: r) (by omega) (by simp [Ends])]
    simp only
    rw [skipWs_cons _ (by decide)]
    rfl
  | p :: q :: l, _, hp, n, r, hn => by
    obtain ⟨n, rfl⟩ : ∃ m, n = m + 1 := ⟨n - 1, by omega⟩
    have e : joined ((p :: q :: l).map (·.1)) = p.1 ++ ',' :: joined ((q :: l).map (·.1)) :=
      joined_cons_cons _ _ _
    rw [e] at hn ⊢
    simp only [List.length_append, List.length_cons] at hn
    rw [List.append_assoc, elems, hp p (by simp) n _ (by omega) (by simp [Ends])]
    simp only
    rw [List.cons_append, skipWs_cons _ (by decide)]
    simp only
    rw [elems_reads (q :: l) (by simp) (fun x hx => hp x (List.mem_cons_of_mem _ hx)) n r
      (by omega)]
    rfl

/-- A text that starts neither with white space nor with a closing bracket. -/
def Starts (t : List Char) : Prop := ∃ c l, t = c :: l ∧ 32 < c.toNat ∧ c ≠ ']' ∧ c ≠ '}'

theorem reads_arr {l : List (List Char × JVal)} (h : ∀ p ∈ l, Reads p.1 p.2)
    (hs : ∀ p ∈ l, Starts p.1) :
    Reads ('[' :: joined (l.map (·.1)) ++ [']']) (.arr (l.map (·.2))) := by
  intro n r hn _
  obtain ⟨n, rfl⟩ : ∃ m, n = m + 1 := ⟨n - 1, by simp at hn; omega⟩
  have e : '[' :: joined (l.map (·.1)) ++ [']'] ++ r = '[' :: (joined (l.map (·.1)) ++ ']' :: r) := by
    simp
  rw [e, value, skipWs_cons _ (by decide)]
  simp only
  cases l with
  | nil =>
    rw [show joined (([] : List (List Char × JVal)).map (·.1)) ++ ']' :: r = ']' :: r from rfl,
      skipWs_cons _ (by decide)]
    rfl
  | cons p l =>
    obtain ⟨c, t, hc, h1, h2, _⟩ := hs p (by simp)
    have hel := elems_reads (p :: l) (by simp) h n r (by
      simp only [List.length_append, List.length_cons, List.length_nil] at hn; omega)
    have hj : ∃ u, joined ((p :: l).map (·.1)) ++ ']' :: r = c :: u := by
      rw [List.map_cons, joined, hc]
      exact ⟨_, rfl⟩
    obtain ⟨u, hu⟩ := hj
    rw [hu] at hel ⊢
    rw [skipWs_cons _ h1]
    split
    · rename_i hx; injection hx with h4 _; exact absurd h4 h2
    · rw [hel]; rfl

/-- A member of an object. -/
def memText (k t : List Char) : List Char := '"' :: k ++ ['"', ':'] ++ t

theorem members_reads : ∀ (l : List ((List Char × List Char) × JVal)), l ≠ [] →
    (∀ p ∈ l, Plain p.1.1 ∧ Reads p.1.2 p.2) →
    ∀ (n : Nat) (r : List Char),
    (joined (l.map fun p => memText p.1.1 p.1.2)).length + 2 ≤ n →
    members n (joined (l.map fun p => memText p.1.1 p.1.2) ++ '}' :: r) =
      some (l.map fun p => (p.1.1, p.2), r)
  | [], h, _, _, _, _ => absurd rfl h
  | [p], _, hp, n, r, hn => by
    obtain ⟨n, rfl⟩ : ∃ m, n = m + 1 := ⟨n - 1, by omega⟩
    obtain ⟨h1, h2⟩ := hp p (by simp)
    have e : joined ([p].map fun p => memText p.1.1 p.1.2) ++ '}' :: r =
        '"' :: (p.1.1 ++ '"' :: (':' :: (p.1.2 ++ '}' :: r))) := by simp [joined, memText]
    have hl : p.1.2.length + 1 ≤ n := by
      simp only [joined, memText, List.map_cons, List.map_nil, List.flatten_nil, List.append_nil,
        List.length_append, List.length_cons] at hn
      omega
    rw [e, members, skipWs_cons _ (by decide)]
    simp only
    rw [string_plain h1]
    simp only
    rw [skipWs_cons _ (by decide)]
    simp only
    rw [h2 n ('}' :: r) hl (by simp [Ends])]
    simp only
    rw [skipWs_cons _ (by decide)]
    rfl
  | p :: q :: l, _, hp, n, r, hn => by
    obtain ⟨n, rfl⟩ : ∃ m, n = m + 1 := ⟨n - 1, by omega⟩
    obtain ⟨h1, h2⟩ := hp p (by simp)
    have e0 : joined ((p :: q :: l).map fun p => memText p.1.1 p.1.2) =
        memText p.1.1 p.1.2 ++ ',' :: joined ((q :: l).map fun p => memText p.1.1 p.1.2) :=
      joined_cons_cons _ _ _
    rw [e0] at hn ⊢
    generalize hj : joined ((q :: l).map fun p => memText p.1.1 p.1.2) = j at hn ⊢
    have e : memText p.1.1 p.1.2 ++ ',' :: j ++ '}' :: r =
        '"' :: (p.1.1 ++ '"' :: (':' :: (p.1.2 ++ ',' :: (j ++ '}' :: r)))) := by
      simp [memText]
    simp only [memText, List.length_append, List.length_cons] at hn
    rw [e, members, skipWs_cons _ (by decide)]
    simp only
    rw [string_plain h1]
    simp only
    rw [skipWs_cons _ (by decide)]
    simp only
    rw [h2 n (',' :: (j ++ '}' :: r)) (by omega) (by simp [Ends])]
    simp only
    rw [skipWs_cons _ (by decide)]
    simp only
    have := members_reads (q :: l) (by simp) (fun x hx => hp x (List.mem_cons_of_mem _ hx)) n r
      (by rw [hj]; omega)
    rw [hj] at this
    rw [this]
    rfl

theorem reads_obj {l : List ((List Char × List Char) × JVal)}
    (h : ∀ p ∈ l, Plain p.1.1 ∧ Reads p.1.2 p.2) :
    Reads ('{' :: joined (l.map fun p => memText p.1.1 p.1.2) ++ ['}'])
      (.obj (l.map fun p => (p.1.1, p.2))) := by
  intro n r hn _
  obtain ⟨n, rfl⟩ : ∃ m, n = m + 1 := ⟨n - 1, by simp at hn; omega⟩
  generalize hj : joined (l.map fun p => memText p.1.1 p.1.2) = j at hn ⊢
  have e : '{' :: j ++ ['}'] ++ r = '{' :: (j ++ '}' :: r) := by simp
  rw [e, value, skipWs_cons _ (by decide)]
  simp only
  cases l with
  | nil =>
    subst hj
    rw [show joined (([] : List ((List Char × List Char) × JVal)).map
      fun p => memText p.1.1 p.1.2) ++ '}' :: r = '}' :: r from rfl, skipWs_cons _ (by decide)]
    rfl
  | cons p l =>
    have hel := members_reads (p :: l) (by simp) h n r (by
      rw [hj]
      simp only [List.length_append, List.length_cons, List.length_nil] at hn; omega)
    rw [hj] at hel
    have hu : ∃ u, j ++ '}' :: r = '"' :: u := by
      rw [← hj, List.map_cons, joined, memText]
      exact ⟨_, rfl⟩
    obtain ⟨u, hu⟩ := hu
    rw [hu] at hel ⊢
    rw [skipWs_cons _ (by decide)]
    show (members n ('"' :: u)).map _ = _
    rw [hel]
    rfl

theorem readJson_of {t : List Char} {v : JVal} (h : Reads t v) : readJson t = some v := by
  have := h (t.length + 1) [] (Nat.le_refl _) trivial
  rw [List.append_nil] at this
  rw [readJson, this]
  rfl

/-! ## The text of a row -/

/-- The text of a column. -/
def colText : CVal → List Char
  | .int _ v => decInt v
  | .flt _ t => t
  | .chr c => ['"', c, '"']
  | .str s => '"' :: s ++ ['"']
  | .ts sec usec => dec sec ++ '.' :: dec6 usec
  | .ints _ vs => '[' :: joined (vs.map decInt) ++ [']']
  | .flts _ ts => '[' :: joined ts ++ [']']
  | .other => []

theorem isNum_starts {t : List Char} (h : IsNum t) : Starts t := by
  obtain ⟨v, hv⟩ := h
  obtain ⟨c, l, h, hc⟩ := number_head hv
  refine ⟨c, l, h, ?_⟩
  rcases hc with rfl | hc
  · decide
  · have := isDigit_toNat hc
    refine ⟨by omega, ?_, ?_⟩ <;> rintro rfl <;> revert this <;> decide

theorem int_starts (v : Int) : Starts (decInt v) := by
  have : IsNum (decInt v) := ⟨_, by simpa using number_decInt v (r := []) trivial⟩
  exact isNum_starts this

theorem col_reads {v : CVal} (h : Printable v) : Reads (colText v) (jval v) := by
  cases v with
  | int k v => exact reads_int v
  | flt k t => exact reads_flt h.1
  | chr c =>
    refine reads_str (s := [c]) ?_
    intro d hd
    rw [List.mem_singleton.mp hd]
    exact h
  | str s => exact reads_str h.1
  | ts sec usec => exact reads_ts sec h.2
  | ints k vs =>
    have := reads_arr (l := vs.map fun v => (decInt v, JVal.num v 0)) (by
      intro p hp
      obtain ⟨v, _, rfl⟩ := List.mem_map.mp hp
      exact reads_int v) (by
      intro p hp
      obtain ⟨v, _, rfl⟩ := List.mem_map.mp hp
      exact int_starts v)
    simpa [colText, jval, List.map_map, Function.comp_def] using this
  | flts k ts =>
    have := reads_arr (l := ts.map fun t => (t, numVal t)) (by
      intro p hp
      obtain ⟨t, ht, rfl⟩ := List.mem_map.mp hp
      exact reads_flt (h t ht).1) (by
      intro p hp
      obtain ⟨t, ht, rfl⟩ := List.mem_map.mp hp
      exact isNum_starts (h t ht).1)
    simpa [colText, jval, List.map_map, Function.comp_def] using this
  | other => exact h.elim

theorem col_starts {v : CVal} (h : Printable v) : Starts (colText v) := by
  cases v with
  | int k v => exact int_starts v
  | flt k t => exact isNum_starts h.1
  | chr c => exact ⟨_, _, rfl, by decide, by decide, by decide⟩
  | str s => exact ⟨_, _, rfl, by decide, by decide, by decide⟩
  | ts sec usec =>
    have : IsNum (dec sec ++ '.' :: dec6 usec) :=
      ⟨_, by simpa using number_ts (sec := sec) h.2 (r := []) trivial⟩
    exact isNum_starts this
  | ints k vs => exact ⟨_, _, rfl, by decide, by decide, by decide⟩
  | flts k ts => exact ⟨_, _, rfl, by decide, by decide, by decide⟩
  | other => exact h.elim

/-! ## The pieces -/

/-- The pieces give the text, and are of good lengths. -/
def Prints (l : List (Option (List Char))) (t : List Char) : Prop :=
  ∃ ps : List (List Char), l = ps.map some ∧ ps.flatten = t ∧ ∀ p ∈ ps, GoodLen p.length

theorem Prints.append {l l' : List (Option (List Char))} {t t' : List Char} (h : Prints l t)
    (h' : Prints l' t') : Prints (l ++ l') (t ++ t') := by
  obtain ⟨ps, rfl, rfl, h1⟩ := h
  obtain ⟨ps', rfl, rfl, h1'⟩ := h'
  refine ⟨ps ++ ps', by simp, by simp, fun p hp => ?_⟩
  rcases List.mem_append.mp hp with hp | hp
  · exact h1 p hp
  · exact h1' p hp

theorem prints_one {t : List Char} (h : GoodLen t.length) : Prints [some t] t :=
  ⟨[t], rfl, by simp, by simpa using h⟩

theorem goodLen_small {n : Nat} (h1 : 0 < n) (h2 : n < 8192) : GoodLen n := by
  unfold GoodLen; omega

theorem decInt_length {v : Int} (h : v.natAbs < 2 ^ 64) :
    0 < (decInt v).length ∧ (decInt v).length ≤ 21 := by
  have h1 := dec_length (k := 20) (n := v.natAbs) (by omega) (by omega)
  have h2 := dec_pos v.natAbs
  unfold decInt
  split
  · simp only [List.length_cons]; omega
  · omega

theorem prints_elems {l : List (List Char)} (h : ∀ t ∈ l, 0 < t.length ∧ t.length ≤ 30) :
    Prints (elemPieces l) ('[' :: joined l ++ [']']) := by
  cases l with
  | nil =>
    refine ⟨[['['], [']']], rfl, rfl, ?_⟩
    intro p hp
    simp only [List.mem_cons, List.not_mem_nil, or_false] at hp
    rcases hp with rfl | rfl <;> exact goodLen_small (by simp) (by simp)
  | cons t l =>
    refine ⟨['['] :: t :: (l.map (',' :: ·)) ++ [[']']], ?_, ?_, ?_⟩
    · simp [elemPieces]
    · simp [joined]
    · intro p hp
      simp only [List.cons_append, List.mem_cons, List.mem_append, List.mem_map,
        List.not_mem_nil, or_false] at hp
      rcases hp with rfl | rfl | ⟨u, hu, rfl⟩ | rfl
      · exact goodLen_small (by simp) (by simp)
      · have := h p (by simp); exact goodLen_small (by omega) (by omega)
      · have := h u (by simp [hu])
        exact goodLen_small (by simp) (by simp only [List.length_cons]; omega)
      · exact goodLen_small (by simp) (by simp)

theorem isNum_pos {t : List Char} (h : IsNum t) : 0 < t.length := by
  obtain ⟨v, hv⟩ := h
  obtain ⟨c, l, rfl, _⟩ := number_head hv
  simp

theorem col_prints {v : CVal} (h : Printable v) : Prints (colPieces v) (colText v) := by
  cases v with
  | int k v =>
    have := decInt_length h
    exact prints_one (goodLen_small (by omega) (by omega))
  | flt k t =>
    have := isNum_pos h.1
    have := h.2
    exact prints_one (goodLen_small (by omega) (by omega))
  | chr c => exact prints_one (goodLen_small (by simp) (by simp))
  | str s =>
    refine prints_one ?_
    have := h.2
    simpa using this
  | ts sec usec =>
    have h1 := dec_length (k := 20) (n := sec) (by have := h.1; omega) (by omega)
    have h2 := (dec6_facts h.2).1
    exact prints_one (goodLen_small (by simp only [List.length_append, List.length_cons]; omega)
      (by simp only [List.length_append, List.length_cons]; omega))
  | ints k vs =>
    refine prints_elems ?_
    intro t ht
    obtain ⟨v, hv, rfl⟩ := List.mem_map.mp ht
    have := decInt_length (h v hv)
    omega
  | flts k ts =>
    refine prints_elems ?_
    intro t ht
    have := isNum_pos (h t ht).1
    have := (h t ht).2
    omega
  | other => exact h.elim

theorem prints_commas {ls : List (List (Option (List Char)) × List Char)}
    (h : ∀ p ∈ ls, Prints p.1 p.2) : Prints (commas (ls.map (·.1))) (joined (ls.map (·.2))) := by
  cases ls with
  | nil => exact ⟨[], rfl, rfl, by simp⟩
  | cons p ls =>
    rw [List.map_cons, List.map_cons, commas, joined]
    refine (h p (by simp)).append ?_
    have h' : ∀ q ∈ ls, Prints q.1 q.2 := fun q hq => h q (List.mem_cons_of_mem _ hq)
    clear h
    induction ls with
    | nil => exact ⟨[], rfl, rfl, by simp⟩
    | cons q ls ih =>
      have h1 : Prints (some [','] :: q.1) (',' :: q.2) :=
        (prints_one (t := [',']) (goodLen_small (by simp) (by simp))).append (h' q (by simp))
      have h2 := ih fun q hq => h' q (List.mem_cons_of_mem _ hq)
      simpa using h1.append h2

theorem printAll_prints {l : List (Option (List Char))} {t : List Char} (h : Prints l t) :
    printAll [] l = .ok t := by
  obtain ⟨ps, rfl, rfl, hg⟩ := h
  rw [printAll_good ps [] hg]
  simp [strbufStr]

theorem toArray_ok {cols : List Col} (h : ∀ c ∈ cols, Printable c.val) :
    toArray cols = .ok ('[' :: joined (cols.map fun c => colText c.val) ++ [']']) := by
  have h1 := prints_commas (ls := cols.map fun c => (colPieces c.val, colText c.val)) (by
    intro p hp
    obtain ⟨c, hc, rfl⟩ := List.mem_map.mp hp
    exact col_prints (h c hc))
  simp only [List.map_map, Function.comp_def] at h1
  have h2 := ((prints_one (t := ['[']) (goodLen_small (by simp) (by simp))).append h1).append
    (prints_one (t := [']']) (goodLen_small (by simp) (by simp)))
  rw [toArray]
  exact printAll_prints h2

theorem toObject_ok {cols : List Col} (h : ∀ c ∈ cols, Printable c.val)
    (hn : ∀ c ∈ cols, GoodLen (c.name.length + 3)) :
    toObject cols =
      .ok ('{' :: joined (cols.map fun c => memText c.name (colText c.val)) ++ ['}']) := by
  have h1 := prints_commas (ls := cols.map fun c =>
      (some ('"' :: c.name ++ ['"', ':']) :: colPieces c.val, memText c.name (colText c.val))) (by
    intro p hp
    obtain ⟨c, hc, rfl⟩ := List.mem_map.mp hp
    have := hn c hc
    exact (prints_one (t := '"' :: c.name ++ ['"', ':']) (by simpa using this)).append
      (col_prints (h c hc)))
  simp only [List.map_map, Function.comp_def] at h1
  have h2 := ((prints_one (t := ['{']) (goodLen_small (by simp) (by simp))).append h1).append
    (prints_one (t := ['}']) (goodLen_small (by simp) (by simp)))
  rw [toObject]
  exact printAll_prints h2

end Verif.RowJson
