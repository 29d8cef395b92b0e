import Verif.ProcSamp.Props

/-!
# C81: what meminfo and vmstat do with other files, and with errors
-/

namespace Verif.ProcSamp

/-! ### Any file: values go by position -/

/-- **C81.**  A sample of meminfo stores the numbers of the file in the metrics by position, whatever the names in the file are; metrics for
which the file has no line keep their values, and the set says that it is consistent. -/
theorem mem_position {p : Plug} {s : MSet} (hp : p.set = some s) (h3 : 3 ≤ s.vals.length) {f : Str} {rows : List (Str × Nat)} (hf : Says f rows) (hr : 3 + rows.length ≤ s.vals.length) :
    ∃ t, memSample p f = .ok (0, { p with set := some t }) ∧ t.names = s.names ∧ t.consistent = true ∧
      (∀ k w v, rows[k]? = some (w, v) → t.vals[3 + k]? = some v) ∧ (∀ i, i < 3 ∨ 3 + rows.length ≤ i → t.vals[i]? = s.vals[i]?) := by
  refine ⟨{ s with vals := over s.vals 3 (rows.map (·.2)), consistent := true }, ?_, rfl, rfl, ?_, ?_⟩
  · unfold memSample
    rw [hp]
    simp only
    rw [show baseNames.length = 3 from rfl, memLoop_ok (upto_says hf) hr]
  · intro k w v hk
    have hlt : k < rows.length := (List.getElem?_eq_some_iff.1 hk).1
    simp only
    rw [over_in (by simpa using hr) (by simpa using hlt)]
    simp [hk]
  · rintro i (hi | hi)
    · exact over_before h3 hi
    · exact over_after h3 (by simpa using hi)

/-- **C81.**  The same for vmstat. -/
theorem vm_position {p : Plug} {s : MSet} (hp : p.set = some s) (h3 : 3 ≤ s.vals.length) {f : Str} {rows : List (Str × Nat)} (hf : Says f rows) (hr : 3 + rows.length ≤ s.vals.length) :
    ∃ t, vmSample p f = .ok (0, { p with set := some t }) ∧ t.names = s.names ∧ t.consistent = true ∧
      (∀ k w v, rows[k]? = some (w, v) → t.vals[3 + k]? = some v) ∧ (∀ i, i < 3 ∨ 3 + rows.length ≤ i → t.vals[i]? = s.vals[i]?) := by
  refine ⟨{ s with vals := over s.vals 3 (rows.map (·.2)), consistent := true }, ?_, rfl, rfl, ?_, ?_⟩
  · unfold vmSample
    rw [hp]
    simp only
    rw [show baseNames.length = 3 from rfl, vmLoop_ok (upto_says hf) hr]
  · intro k w v hk
    have hlt : k < rows.length := (List.getElem?_eq_some_iff.1 hk).1
    simp only
    rw [over_in (by simpa using hr) (by simpa using hlt)]
    simp [hk]
  · rintro i (hi | hi)
    · exact over_before h3 hi
    · exact over_after h3 (by simpa using hi)

/-- **C81, defect.**  A file with more lines than there were when the sampler was configured ends the daemon. -/
theorem more_lines_defect {p : Plug} {s : MSet} (hp : p.set = some s) (h3 : 3 ≤ s.vals.length) {f : Str} {rows : List (Str × Nat)}
    (hf : Says f rows) (hr : s.vals.length < 3 + rows.length) : memSample p f = .error .abort ∧ vmSample p f = .error .abort := by
  constructor
  · unfold memSample
    rw [hp]
    simp only
    rw [show baseNames.length = 3 from rfl, memLoop_abort (upto_says hf) h3 hr]
  · unfold vmSample
    rw [hp]
    simp only
    rw [show baseNames.length = 3 from rfl, vmLoop_abort (upto_says hf) h3 hr]

/-! ### A line that is not a row -/

theorem number_none {b x t : Str} (hb : Blank b) (hx : Word x) (h : ∀ c ∈ x.head?, ¬ (48 ≤ c ∧ c ≤ 57) ∧ c ≠ 43 ∧ c ≠ 45) :
    number (b ++ (x ++ t)) = none := by
  cases x with
  | nil => exact absurd rfl hx.1
  | cons c x =>
    have hc := h c rfl
    have hs : space c = false := by simpa using word_char hx c (by simp)
    have hd : digit c = false := by
      simp only [digit, Bool.and_eq_false_iff, decide_eq_false_iff_not]
      omega
    have e : (b ++ (c :: x ++ t)).dropWhile space = c :: (x ++ t) := by
      rw [dropWhile_append_all (blank_space hb)]
      simp [hs]
    have e2 : sign (c :: (x ++ t)) = (false, c :: (x ++ t)) := by
      unfold sign
      split
      · rename_i hh; cases hh; omega
      · rename_i hh; cases hh; omega
      · rfl
    unfold number
    simp only [e, e2]
    rw [if_pos (by simp [hd])]

theorem number_end {b : Str} (hb : Blank b) : number (b ++ [10]) = none := by
  have e : (b ++ [10]).dropWhile space = [] := by
    rw [dropWhile_append_all (blank_space hb)]
    rfl
  unfold number
  simp only [e]
  rfl

theorem notRow_pair {l : Str} (h : NotRow l) : pair (l.takeWhile (· ≠ 0)) = none := by
  obtain ⟨-, a, ha, h⟩ := h
  rcases h with rfl | ⟨w, b, r, rfl, hw, hb, h⟩
  · rw [takeWhile_append_all (blank_no0 ha)]
    have : (a ++ List.takeWhile (fun x => decide (x ≠ 0)) [10]).dropWhile space = [] := by
      rw [dropWhile_append_all (blank_space ha)]
      rfl
    unfold pair word
    simp only [this]
    rfl
  · rcases h with rfl | ⟨hb0, x, hx, ⟨t, rfl⟩, hh⟩
    · have e : (a ++ w ++ b ++ [] ++ [10]).takeWhile (fun x => decide (x ≠ 0)) = a ++ w ++ (b ++ [10]) := by
        simp only [List.append_assoc, List.nil_append]
        rw [takeWhile_append_all (blank_no0 ha), takeWhile_append_all (word_no0 hw), takeWhile_append_all (blank_no0 hb)]
        rfl
      rw [e, pair, word_of ha hw (by
        intro c hc
        cases b with
        | nil => simp at hc; subst hc; rfl
        | cons y b => simp at hc; subst hc; exact blank_space hb y (by simp))]
      simp only
      rw [number_end hb]
      rfl
    · have e : (a ++ w ++ b ++ (x ++ t) ++ [10]).takeWhile (fun x => decide (x ≠ 0)) =
          a ++ w ++ (b ++ (x ++ (t ++ [10]).takeWhile (fun x => decide (x ≠ 0)))) := by
        simp only [List.append_assoc]
        rw [takeWhile_append_all (blank_no0 ha), takeWhile_append_all (word_no0 hw), takeWhile_append_all (blank_no0 hb),
          takeWhile_append_all (word_no0 hx)]
      rw [e, pair, word_of ha hw (head_blank hb hb0)]
      simp only
      rw [number_none hb hx hh]
      rfl

theorem pieces_prefix : ∀ {ls : List Str} {b : Str}, (∀ l ∈ ls, Title l) → pieces [] (ls.flatten ++ b) = ls ++ pieces [] b
  | [], _, _ => rfl
  | l :: ls, b, h => by
    rw [List.flatten_cons, List.append_assoc, pieces_title (h l (by simp)), pieces_prefix fun l hl => h l (by simp [hl])]
    rfl

theorem upto_bad {g l rest : Str} {rows : List (Str × Nat)} (hg : Says g rows) (hl : NotRow l) : Upto (lines (g ++ (l ++ rest))) rows False := by
  have h := says_lines hg
  obtain ⟨ls, rfl, hls⟩ := hg
  have ht : ∀ l ∈ ls, Title l := by
    intro l hl
    obtain ⟨p, -, hp⟩ := forall2_left hls l hl
    exact row_title hp
  rw [lines_titles ht] at h
  rw [lines, pieces_prefix ht, pieces_title hl.1]
  refine ⟨none :: ((pieces [] rest).map fun l => l.takeWhile (· ≠ 0)).map pair, ?_, Or.inr ⟨rfl, id⟩⟩
  rw [List.map_append, List.map_append, h, List.map_cons, List.map_cons, notRow_pair hl]

/-- **C81.**  A line that is not "name number" ends the metrics of meminfo: what follows it is not in the set, and no error is given. -/
theorem mem_config_cut {p : Plug} {a : Args} {g l rest : Str} {rows : List (Str × Nat)} (hp : p.set = none) (ha : Good a (g ++ (l ++ rest)))
    (hg : Says g rows) (hl : NotRow l) {labels : List Str} (hn : List.Forall₂ (fun r n => Label r.1 n) rows labels) (h1 : labels.Nodup)
    (h2 : ∀ n ∈ labels, ¬ OfBase n) :
    ∃ q s, config memCreate p a = .ok (0, q) ∧ q.set = some s ∧ ∀ n, n ∈ s.names ↔ OfBase n ∨ n ∈ labels := by
  have hl' : labels = rows.map fun r => strip r.1 := by
    clear h1 h2 hg
    induction hn with
    | nil => rfl
    | cons h _ ih => rw [List.map_cons, ← ih, ← label_strip.1 h]
  subst hl'
  refine ⟨_, _, mem_config hp ha (upto_bad hg hl) h1 (fun r hr => h2 _ (List.mem_map.2 ⟨r, hr, rfl⟩)), rfl, ?_⟩
  intro n
  simp only [newSet, List.mem_append, ofBase_iff]

/-- **C81.**  vmstat refuses such a file: no set is made. -/
theorem vm_config_bad {p : Plug} {a : Args} {g l rest : Str} {rows : List (Str × Nat)} (hp : p.set = none) (ha : Good a (g ++ (l ++ rest)))
    (hg : Says g rows) (hl : NotRow l) : ∃ e q, config vmCreate p a = .ok (e, q) ∧ e ≠ 0 ∧ q.set = none := by
  obtain ⟨g1, g2, g3, g4⟩ := ha
  obtain ⟨e, he, h0⟩ := vmNames_bad (hv := baseNames) (upto_bad (rest := rest) hg hl)
  refine ⟨e, ⟨.dangling, p.set⟩, ?_, h0, hp⟩
  unfold config
  rw [hp]
  simp only [Option.isSome_none, Bool.false_eq_true, if_false, g1, g2, Bool.not_true, vmCreate, g4, he]
  rfl

/-- **C81, defect.**  At a sample such a line leaves a set that says it is consistent, in which the metrics of the lines before it are new and
the others are of earlier samples; meminfo even returns 0. -/
theorem torn_defect {p : Plug} {s : MSet} (hp : p.set = some s) (h3 : 3 ≤ s.vals.length) {g l rest : Str} {rows : List (Str × Nat)}
    (hg : Says g rows) (hl : NotRow l) (hr : 3 + rows.length ≤ s.vals.length) :
    ∃ t, memSample p (g ++ (l ++ rest)) = .ok (0, { p with set := some t }) ∧
      vmSample p (g ++ (l ++ rest)) = .ok (EINVAL, { p with set := some t }) ∧ t.consistent = true ∧
      (∀ k w v, rows[k]? = some (w, v) → t.vals[3 + k]? = some v) ∧ (∀ i, 3 + rows.length ≤ i → t.vals[i]? = s.vals[i]?) := by
  refine ⟨{ s with vals := over s.vals 3 (rows.map (·.2)), consistent := true }, ?_, ?_, rfl, ?_, ?_⟩
  · unfold memSample
    rw [hp]
    simp only
    rw [show baseNames.length = 3 from rfl, memLoop_ok (upto_bad hg hl) hr]
  · unfold vmSample
    rw [hp]
    simp only
    rw [show baseNames.length = 3 from rfl, vmLoop_bad (upto_bad hg hl) hr]
  · intro k w v hk
    have hlt : k < rows.length := (List.getElem?_eq_some_iff.1 hk).1
    simp only
    rw [over_in (by simpa using hr) (by simpa using hlt)]
    simp [hk]
  · intro i hi
    exact over_after h3 (by simpa using hi)

/-! ### Names that are taken -/

/-- **C81.**  A file with the same label twice, or with the name of a base metric, gives no set, and `config` fails. -/
theorem mem_config_dup {p : Plug} {a : Args} {f : Str} {rows : List (Str × Nat)} (hp : p.set = none) (ha : Good a f) (hf : Says f rows)
    {labels : List Str} (hn : List.Forall₂ (fun r n => Label r.1 n) rows labels) (h : ¬ labels.Nodup ∨ ∃ n ∈ labels, OfBase n) :
    ∃ q, config memCreate p a = .ok (12, q) ∧ q.set = none := by
  have hl' : labels = rows.map fun r => strip r.1 := by
    clear h hf
    induction hn with
    | nil => rfl
    | cons h _ ih => rw [List.map_cons, ← ih, ← label_strip.1 h]
  subst hl'
  obtain ⟨g1, g2, g3, g4⟩ := ha
  have : ¬ (baseNames ++ rows.map fun p => strip p.1).Nodup := by
    rw [List.nodup_append]
    rintro ⟨-, h1, h2⟩
    rcases h with h | ⟨n, hn, hb⟩
    · exact h h1
    · exact h2 n (ofBase_iff.1 hb) n hn rfl
  refine ⟨⟨.dangling, p.set⟩, ?_, hp⟩
  unfold config
  rw [hp]
  simp only [Option.isSome_none, Bool.false_eq_true, if_false, g1, g2, Bool.not_true, memCreate, g4, memNames_dup (upto_says hf) base_nodup this]
  rfl

theorem vm_config_dup {p : Plug} {a : Args} {f : Str} {rows : List (Str × Nat)} (hp : p.set = none) (ha : Good a f) (hf : Says f rows)
    (h : ¬ (rows.map (·.1)).Nodup ∨ ∃ r ∈ rows, OfBase r.1) : ∃ q, config vmCreate p a = .ok (-17, q) ∧ q.set = none := by
  obtain ⟨g1, g2, g3, g4⟩ := ha
  have : ¬ (baseNames ++ rows.map (·.1)).Nodup := by
    rw [List.nodup_append]
    rintro ⟨-, h1, h2⟩
    rcases h with h | ⟨r, hn, hb⟩
    · exact h h1
    · exact h2 r.1 (ofBase_iff.1 hb) r.1 (List.mem_map.2 ⟨r, hn, rfl⟩) rfl
  refine ⟨⟨.dangling, p.set⟩, ?_, hp⟩
  unfold config
  rw [hp]
  simp only [Option.isSome_none, Bool.false_eq_true, if_false, g1, g2, Bool.not_true, vmCreate, g4, vmNames_dup (upto_says hf) base_nodup this]
  rfl

/-! ### Configuring and ending -/

/-- **C81.**  `config` of meminfo and vmstat is refused when there is a set, and changes nothing. -/
theorem config_once {create : Args → Except Int MSet} {p : Plug} {a : Args} {s : MSet} (hp : p.set = some s) :
    config create p a = .ok (22, p) := by
  unfold config
  rw [hp]
  rfl

/-- **C81.**  `config` returns 0 exactly when it leaves a set (meminfo and vmstat, for files that make no set fail with 0). -/
theorem config_zero {create : Args → Except Int MSet} (h0 : ∀ a e, create a = .error e → e ≠ 0) {p q : Plug} {a : Args} {rc : Int} (hp : p.set = none)
    (h : config create p a = .ok (rc, q)) : rc = 0 ↔ q.set.isSome := by
  unfold config at h
  rw [hp] at h
  simp only [Option.isSome_none, Bool.false_eq_true, if_false] at h
  by_cases h1 : a.hasSet
  · rw [if_pos h1] at h
    cases h
    simp [hp, EINVAL]
  · rw [if_neg h1] at h
    by_cases h2 : (!a.complete) = true
    · rw [if_pos h2] at h
      cases h
      simp [hp, EINVAL]
    · rw [if_neg h2] at h
      cases hc : create a with
      | ok s => rw [hc] at h; cases h; simp
      | error e =>
        rw [hc] at h
        cases h
        simpa using h0 a _ hc

theorem mem_create_error {a : Args} {e : Int} (h : memCreate a = .error e) : e ≠ 0 := by
  unfold memCreate at h
  split at h
  · cases h; decide
  · split at h
    · cases h; decide
    · split at h
      · cases h; assumption
      · cases h

theorem vmNames_error : ∀ {ls hv : List Str} {e : Int}, vmNames hv ls = .error e → e ≠ 0
  | [], hv, e, h => by cases h
  | l :: ls, hv, e, h => by
    rw [vmNames] at h
    split at h
    · cases h
      split <;> decide
    · split at h
      · cases h; decide
      · exact vmNames_error h

theorem vm_create_error {a : Args} {e : Int} (h : vmCreate a = .error e) : e ≠ 0 := by
  unfold vmCreate at h
  split at h
  · cases h; decide
  · split at h
    · rename_i hv; cases h; exact vmNames_error hv
    · split at h
      · cases h; assumption
      · cases h

/-- **C81.**  meminfo and vmstat: for all commands and files, `config` returns 0 exactly when there is a set afterwards. -/
theorem config_says {p q : Plug} {a : Args} {rc : Int} (hp : p.set = none) :
    (config memCreate p a = .ok (rc, q) → (rc = 0 ↔ q.set.isSome)) ∧ (config vmCreate p a = .ok (rc, q) → (rc = 0 ↔ q.set.isSome)) :=
  ⟨config_zero (fun _ _ => mem_create_error) hp, config_zero (fun _ _ => vm_create_error) hp⟩

/-- **C81.**  After a `config` that succeeded, ending the plugin frees everything once. -/
theorem term_good {create : Args → Except Int MSet} {p q : Plug} {a : Args} (h : config create p a = .ok (0, q)) (h0 : ∀ e, create a = .error e → e ≠ 0) :
    (∃ r, memTerm q = .ok r ∧ r.set = none) ∧ vmTerm q = .ok ⟨.null, none⟩ := by
  unfold config at h
  by_cases h1 : p.set.isSome
  · rw [if_pos h1] at h; cases h
  · rw [if_neg h1] at h
    by_cases h2 : a.hasSet
    · rw [if_pos h2] at h; cases h
    · rw [if_neg h2] at h
      by_cases h3 : (!a.complete) = true
      · rw [if_pos h3] at h; cases h
      · rw [if_neg h3] at h
        cases hc : create a with
        | ok s => rw [hc] at h; cases h; exact ⟨⟨_, rfl, rfl⟩, rfl⟩
        | error e =>
          rw [hc] at h
          cases h
          exact absurd rfl (h0 _ hc)

/-- **C81, defect.**  When a complete `config` fails, because of the file or of the set, ending the plugin frees its memory again. -/
theorem term_failed_defect {create : Args → Except Int MSet} {p q : Plug} {a : Args} {e rc : Int} (hp : p.set = none) (h1 : a.hasSet = false)
    (h2 : a.complete = true) (hc : create a = .error e) (h : config create p a = .ok (rc, q)) :
    rc = e ∧ memTerm q = .error .freed ∧ vmTerm q = .error .freed := by
  unfold config at h
  rw [hp] at h
  simp only [Option.isSome_none, Bool.false_eq_true, if_false, h1, h2, Bool.not_true, hc] at h
  cases h
  exact ⟨rfl, rfl, rfl⟩

end Verif.ProcSamp
