import Verif.ProcSamp.Proofs

/-! Proofs for meminfo and vmstat. -/

namespace Verif.ProcSamp

/-- the rows of a file up to its end, or up to a line that is not a row -/
def Upto (ls : List Str) (rows : List (Str × Nat)) (clean : Prop) : Prop :=
  ∃ tl, ls.map pair = rows.map some ++ tl ∧ ((tl = [] ∧ clean) ∨ (tl.head? = some none ∧ ¬ clean))

theorem upto_nil {ls : List Str} {clean : Prop} (h : Upto ls [] clean) : (ls = [] ∧ clean) ∨ (∃ l t, ls = l :: t ∧ pair l = none ∧ ¬ clean) := by
  obtain ⟨tl, e, h⟩ := h
  simp at e
  rcases h with ⟨rfl, h⟩ | ⟨h1, h2⟩
  · simp at e
    exact Or.inl ⟨e, h⟩
  · subst e
    cases ls with
    | nil => simp at h1
    | cons l t =>
      simp at h1
      exact Or.inr ⟨l, t, rfl, h1, h2⟩

theorem upto_cons {ls : List Str} {p : Str × Nat} {rows : List (Str × Nat)} {clean : Prop} (h : Upto ls (p :: rows) clean) :
    ∃ l t, ls = l :: t ∧ pair l = some p ∧ Upto t rows clean := by
  obtain ⟨tl, e, h⟩ := h
  cases ls with
  | nil => simp at e
  | cons l t =>
    simp only [List.map_cons, List.cons_append, List.cons.injEq] at e
    exact ⟨l, t, rfl, e.1, tl, e.2, h⟩

theorem upto_says {f : Str} {rows : List (Str × Nat)} (h : Says f rows) : Upto (lines f) rows True :=
  ⟨[], by rw [says_lines h, List.append_nil], Or.inl ⟨rfl, trivial⟩⟩

theorem memNames_ok : ∀ {rows : List (Str × Nat)} {ls : List Str} {clean : Prop} {hv : List Str}, Upto ls rows clean →
    (hv ++ rows.map fun p => strip p.1).Nodup → memNames hv ls = some (hv ++ rows.map fun p => strip p.1) := by
  intro rows
  induction rows with
  | nil =>
    intro ls clean hv h _
    rcases upto_nil h with ⟨rfl, -⟩ | ⟨l, t, rfl, hl, -⟩
    · simp [memNames]
    · simp [memNames, hl]
  | cons p rows ih =>
    intro ls clean hv h hn
    obtain ⟨l, t, rfl, hl, ht⟩ := upto_cons h
    rw [memNames, hl]
    simp only
    have hp : strip p.1 ∉ hv := by
      intro hm
      rw [List.nodup_append] at hn
      exact hn.2.2 _ hm _ (by simp) rfl
    rw [schemaAdd, if_neg hp]
    simp only
    rw [ih ht (by simpa using hn)]
    simp

theorem memNames_dup : ∀ {rows : List (Str × Nat)} {ls : List Str} {clean : Prop} {hv : List Str}, Upto ls rows clean → hv.Nodup →
    ¬ (hv ++ rows.map fun p => strip p.1).Nodup → memNames hv ls = none := by
  intro rows
  induction rows with
  | nil =>
    intro ls clean hv _ h h'
    simp at h'
    exact absurd h h'
  | cons p rows ih =>
    intro ls clean hv h hh hn
    obtain ⟨l, t, rfl, hl, ht⟩ := upto_cons h
    rw [memNames, hl]
    simp only
    rw [schemaAdd]
    by_cases hp : strip p.1 ∈ hv
    · rw [if_pos hp]
    · rw [if_neg hp]
      simp only
      exact ih ht (by rw [List.nodup_append]; exact ⟨hh, by simp, by intro a ha b hb; simp at hb; subst hb; intro e; exact hp (e ▸ ha)⟩)
        (by simpa using hn)

theorem vmNames_ok : ∀ {rows : List (Str × Nat)} {ls : List Str} {hv : List Str}, Upto ls rows True →
    (hv ++ rows.map (·.1)).Nodup → vmNames hv ls = .ok (hv ++ rows.map (·.1)) := by
  intro rows
  induction rows with
  | nil =>
    intro ls hv h _
    rcases upto_nil h with ⟨rfl, -⟩ | ⟨l, t, rfl, hl, hc⟩
    · simp [vmNames]
    · exact absurd trivial hc
  | cons p rows ih =>
    intro ls hv h hn
    obtain ⟨l, t, rfl, hl, ht⟩ := upto_cons h
    rw [vmNames, hl]
    simp only
    have hp : p.1 ∉ hv := by
      intro hm
      rw [List.nodup_append] at hn
      exact hn.2.2 _ hm _ (by simp) rfl
    rw [schemaAdd, if_neg hp]
    simp only
    rw [ih ht (by simpa using hn)]
    simp

theorem vmNames_bad : ∀ {rows : List (Str × Nat)} {ls : List Str} {hv : List Str}, Upto ls rows False →
    ∃ e, vmNames hv ls = .error e ∧ e ≠ 0 := by
  intro rows
  induction rows with
  | nil =>
    intro ls hv h
    rcases upto_nil h with ⟨rfl, hc⟩ | ⟨l, t, rfl, hl, hc⟩
    · exact absurd hc id
    · rw [vmNames, hl]
      refine ⟨_, rfl, ?_⟩
      split <;> decide
  | cons p rows ih =>
    intro ls hv h
    obtain ⟨l, t, rfl, hl, ht⟩ := upto_cons h
    rw [vmNames, hl]
    simp only
    rw [schemaAdd]
    by_cases hp : p.1 ∈ hv
    · rw [if_pos hp]
      exact ⟨_, rfl, by decide⟩
    · rw [if_neg hp]
      exact ih ht

theorem vmNames_dup : ∀ {rows : List (Str × Nat)} {ls : List Str} {hv : List Str}, Upto ls rows True → hv.Nodup →
    ¬ (hv ++ rows.map (·.1)).Nodup → vmNames hv ls = .error (-EEXIST) := by
  intro rows
  induction rows with
  | nil =>
    intro ls hv _ h h'
    simp at h'
    exact absurd h h'
  | cons p rows ih =>
    intro ls hv h hh hn
    obtain ⟨l, t, rfl, hl, ht⟩ := upto_cons h
    rw [vmNames, hl]
    simp only
    rw [schemaAdd]
    by_cases hp : p.1 ∈ hv
    · rw [if_pos hp]
    · rw [if_neg hp]
      simp only
      exact ih ht (by rw [List.nodup_append]; exact ⟨hh, by simp, by intro a ha b hb; simp at hb; subst hb; intro e; exact hp (e ▸ ha)⟩)
        (by simpa using hn)

/-- what a sample leaves: the values from the place `i` on are those of the rows -/
def over (vals : List Nat) (i : Nat) (vs : List Nat) : List Nat := vals.take i ++ vs ++ vals.drop (i + vs.length)

theorem over_nil {vals : List Nat} {i : Nat} : over vals i [] = vals := by simp [over]

theorem over_cons {vals vs : List Nat} {i v : Nat} (h : i < vals.length) : over (vals.set i v) (i + 1) vs = over vals i (v :: vs) := by
  apply List.ext_getElem?
  intro k
  unfold over
  simp only [List.getElem?_append, List.length_take, List.length_set, List.length_append, List.length_cons, List.getElem?_take,
    List.getElem?_drop, List.getElem?_set]
  rw [Nat.min_eq_left (by omega), Nat.min_eq_left (by omega)]
  by_cases h1 : k < i
  · rw [if_pos (by omega), if_pos (by omega), if_pos (by omega), if_neg (by omega), if_pos (by omega), if_pos (by omega), if_pos h1]
  · by_cases h2 : k = i
    · subst h2
      rw [if_pos (by omega), if_pos (by omega), if_pos (by omega), if_pos rfl, if_pos h, if_pos (by omega), if_neg (by omega)]
      simp
    · by_cases h3 : k < i + 1 + vs.length
      · rw [if_pos (by omega), if_neg (by omega), if_pos (by omega), if_neg (by omega)]
        obtain ⟨m, rfl⟩ : ∃ m, k = i + 1 + m := ⟨k - (i + 1), by omega⟩
        rw [show i + 1 + m - (i + 1) = m by omega, show i + 1 + m - i = m + 1 by omega]
        simp
      · rw [if_neg (by omega), if_neg (by omega), if_neg (by omega)]
        congr 1
        omega

theorem over_length {vals vs : List Nat} {i : Nat} (h : i + vs.length ≤ vals.length) : (over vals i vs).length = vals.length := by
  simp [over]; omega

theorem over_in {vals vs : List Nat} {i k : Nat} (h : i + vs.length ≤ vals.length) (hk : k < vs.length) : (over vals i vs)[i + k]? = vs[k]? := by
  unfold over
  rw [List.getElem?_append_left (by simp; omega), List.getElem?_append_right (by simp; omega)]
  congr 1
  simp; omega

theorem over_before {vals vs : List Nat} {i k : Nat} (h : i ≤ vals.length) (hk : k < i) : (over vals i vs)[k]? = vals[k]? := by
  unfold over
  rw [List.append_assoc, List.getElem?_append_left (by simp; omega), List.getElem?_take, if_pos hk]

theorem over_after {vals vs : List Nat} {i k : Nat} (h : i ≤ vals.length) (hk : i + vs.length ≤ k) : (over vals i vs)[k]? = vals[k]? := by
  unfold over
  rw [List.getElem?_append_right (by simp; omega), List.getElem?_drop]
  congr 1
  simp; omega

theorem memLoop_ok : ∀ {rows : List (Str × Nat)} {ls : List Str} {clean : Prop} {vals : List Nat} {i : Nat}, Upto ls rows clean →
    i + rows.length ≤ vals.length → memLoop i vals ls = .ok (over vals i (rows.map (·.2))) := by
  intro rows
  induction rows with
  | nil =>
    intro ls clean vals i h _
    rcases upto_nil h with ⟨rfl, -⟩ | ⟨l, t, rfl, hl, -⟩
    · simp [memLoop, over_nil]
    · simp [memLoop, hl, over_nil]
  | cons p rows ih =>
    intro ls clean vals i h hi
    obtain ⟨l, t, rfl, hl, ht⟩ := upto_cons h
    simp only [List.length_cons] at hi
    rw [memLoop, hl]
    simp only
    rw [put, if_pos (by omega)]
    simp only
    rw [ih ht (by simp; omega), over_cons (by omega)]
    rfl

theorem memLoop_abort : ∀ {rows : List (Str × Nat)} {ls : List Str} {clean : Prop} {vals : List Nat} {i : Nat}, Upto ls rows clean →
    i ≤ vals.length → vals.length < i + rows.length → memLoop i vals ls = .error .abort := by
  intro rows
  induction rows with
  | nil => intro ls clean vals i _ h1 h2; simp at h2; omega
  | cons p rows ih =>
    intro ls clean vals i h h1 h2
    obtain ⟨l, t, rfl, hl, ht⟩ := upto_cons h
    simp only [List.length_cons] at h2
    rw [memLoop, hl]
    simp only
    rw [put]
    by_cases hi : i < vals.length
    · rw [if_pos hi]
      exact ih ht (by simp; omega) (by simp; omega)
    · rw [if_neg hi]

theorem vmLoop_ok : ∀ {rows : List (Str × Nat)} {ls : List Str} {vals : List Nat} {i : Nat}, Upto ls rows True →
    i + rows.length ≤ vals.length → vmLoop i vals ls = .ok (0, over vals i (rows.map (·.2))) := by
  intro rows
  induction rows with
  | nil =>
    intro ls vals i h _
    rcases upto_nil h with ⟨rfl, -⟩ | ⟨l, t, rfl, hl, hc⟩
    · simp [vmLoop, over_nil]
    · exact absurd trivial hc
  | cons p rows ih =>
    intro ls vals i h hi
    obtain ⟨l, t, rfl, hl, ht⟩ := upto_cons h
    simp only [List.length_cons] at hi
    rw [vmLoop, hl]
    simp only
    rw [put, if_pos (by omega)]
    simp only
    rw [ih ht (by simp; omega), over_cons (by omega)]
    rfl

theorem vmLoop_bad : ∀ {rows : List (Str × Nat)} {ls : List Str} {vals : List Nat} {i : Nat}, Upto ls rows False →
    i + rows.length ≤ vals.length → vmLoop i vals ls = .ok (EINVAL, over vals i (rows.map (·.2))) := by
  intro rows
  induction rows with
  | nil =>
    intro ls vals i h _
    rcases upto_nil h with ⟨rfl, hc⟩ | ⟨l, t, rfl, hl, hc⟩
    · exact absurd hc id
    · simp [vmLoop, hl, over_nil]
  | cons p rows ih =>
    intro ls vals i h hi
    obtain ⟨l, t, rfl, hl, ht⟩ := upto_cons h
    simp only [List.length_cons] at hi
    rw [vmLoop, hl]
    simp only
    rw [put, if_pos (by omega)]
    simp only
    rw [ih ht (by simp; omega), over_cons (by omega)]
    rfl

theorem vmLoop_abort : ∀ {rows : List (Str × Nat)} {ls : List Str} {clean : Prop} {vals : List Nat} {i : Nat}, Upto ls rows clean →
    i ≤ vals.length → vals.length < i + rows.length → vmLoop i vals ls = .error .abort := by
  intro rows
  induction rows with
  | nil => intro ls clean vals i _ h1 h2; simp at h2; omega
  | cons p rows ih =>
    intro ls clean vals i h h1 h2
    obtain ⟨l, t, rfl, hl, ht⟩ := upto_cons h
    simp only [List.length_cons] at h2
    rw [vmLoop, hl]
    simp only
    rw [put]
    by_cases hi : i < vals.length
    · rw [if_pos hi]
      exact ih ht (by simp; omega) (by simp; omega)
    · rw [if_neg hi]

theorem label_strip {w n : Str} : Label w n ↔ n = strip w := by
  unfold Label strip
  constructor
  · rintro (rfl | ⟨rfl, h⟩)
    · simp
    · rw [if_neg]
      intro e
      obtain ⟨m, rfl⟩ := List.getLast?_eq_some_iff.1 e
      exact h m rfl
  · intro h
    by_cases e : w.getLast? = some 58
    · rw [if_pos e] at h
      obtain ⟨m, rfl⟩ := List.getLast?_eq_some_iff.1 e
      left
      simp at h
      rw [h]
    · rw [if_neg e] at h
      right
      refine ⟨h.symm, ?_⟩
      rintro m rfl
      simp at e

theorem ofBase_iff {n : Str} : OfBase n ↔ n ∈ baseNames := by
  have e1 : "component_id".toList.map Char.toNat = [99, 111, 109, 112, 111, 110, 101, 110, 116, 95, 105, 100] := by decide
  have e2 : "job_id".toList.map Char.toNat = [106, 111, 98, 95, 105, 100] := by decide
  have e3 : "app_id".toList.map Char.toNat = [97, 112, 112, 95, 105, 100] := by decide
  unfold OfBase
  rw [e1, e2, e3]
  simp [baseNames]

end Verif.ProcSamp
