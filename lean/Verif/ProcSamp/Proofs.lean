import Verif.ProcSamp.Spec

namespace Verif.ProcSamp

theorem dropWhile_append_all {p : Nat → Bool} : ∀ {a b : Str}, (∀ c ∈ a, p c = true) → (a ++ b).dropWhile p = b.dropWhile p
  | [], _, _ => rfl
  | c :: a, b, h => by
    rw [List.cons_append, List.dropWhile_cons, if_pos (h c (by simp))]
    exact dropWhile_append_all fun c hc => h c (by simp [hc])

theorem takeWhile_append_all {p : Nat → Bool} : ∀ {a b : Str}, (∀ c ∈ a, p c = true) → (a ++ b).takeWhile p = a ++ b.takeWhile p
  | [], _, _ => rfl
  | c :: a, b, h => by
    rw [List.cons_append, List.takeWhile_cons, if_pos (h c (by simp)), takeWhile_append_all fun c hc => h c (by simp [hc])]
    rfl

theorem blank_space {s : Str} (h : Blank s) : ∀ c ∈ s, space c = true := by
  intro c hc
  rcases h c hc with rfl | rfl <;> rfl

theorem word_char {s : Str} (h : Word s) : ∀ c ∈ s, (!space c) = true := by
  intro c hc
  have := h.2 c hc
  simp [space]
  omega

/-! ### Numbers -/

theorem decimal_digits : ∀ {d : Str} {v : Nat}, Decimal d v → (∀ c ∈ d, digit c = true) ∧ d ≠ [] ∧ decimal d = v := by
  intro d v h
  induction h with
  | one h1 h2 =>
    refine ⟨?_, by simp, by simp [decimal]⟩
    intro x hx
    simp at hx
    subst hx
    simp [digit, h1, h2]
  | @more d v c _ h1 h2 ih =>
    obtain ⟨i1, -, i3⟩ := ih
    refine ⟨?_, by simp, ?_⟩
    · intro x hx
      rcases List.mem_append.1 hx with hx | hx
      · exact i1 x hx
      · simp at hx
        subst hx
        simp [digit, h1, h2]
    · simp only [decimal, List.foldl_append, List.foldl_cons, List.foldl_nil]
      rw [show List.foldl (fun a c => 10 * a + (c - 48)) 0 d = v from i3]

theorem digit_char {c : Nat} (h : digit c = true) : 48 ≤ c ∧ c ≤ 57 := by
  simpa [digit] using h

theorem take_digits {r : Str} (h : NoDigit r) : r.takeWhile digit = [] ∧ r.dropWhile digit = r := by
  cases r with
  | nil => exact ⟨rfl, rfl⟩
  | cons c r =>
    have : digit c = false := by
      have h' : ¬ (48 ≤ c ∧ c ≤ 57) := h
      simp only [digit, Bool.and_eq_false_iff, decide_eq_false_iff_not]
      omega
    simp [List.takeWhile_cons, List.dropWhile_cons, this]

theorem sign_digit {c : Nat} {s : Str} (h : 48 ≤ c) : sign (c :: s) = (false, c :: s) := by
  unfold sign
  split
  · rename_i hh; cases hh; omega
  · rename_i hh; cases hh; omega
  · rfl

theorem number_of {b d r : Str} {v : Nat} (hb : Blank b) (hd : Decimal d v) (hv : v < 2 ^ 64) (hr : NoDigit r) :
    number (b ++ d ++ r) = some (v, r) := by
  obtain ⟨h1, h2, h3⟩ := decimal_digits hd
  cases d with
  | nil => exact absurd rfl h2
  | cons c d =>
    have hc := digit_char (h1 c (by simp))
    have hs : space c = false := by simp [space]; omega
    have e : (b ++ (c :: d) ++ r).dropWhile space = (c :: d) ++ r := by
      rw [List.append_assoc, dropWhile_append_all (blank_space hb)]
      simp [List.dropWhile_cons, hs]
    unfold number
    simp only [e]
    rw [List.cons_append, sign_digit hc.1]
    simp only
    rw [← List.cons_append, takeWhile_append_all h1, (take_digits hr).1, List.append_nil, dropWhile_append_all h1, (take_digits hr).2, h3,
      if_neg (by simp), if_neg (by omega)]
    rfl

theorem nodigit_append {r t : Str} (h : NoDigit r) (ht : NoDigit t) : NoDigit (r ++ t) := by
  cases r with
  | nil => exact ht
  | cons c r => exact h

theorem blank_nodigit {b s : Str} (h : Blank b) (hb : b ≠ []) : NoDigit (b ++ s) := by
  cases b with
  | nil => exact absurd rfl hb
  | cons c b =>
    rcases h c (by simp) with rfl | rfl <;> simp [NoDigit]

/-! ### The lines of a file -/

theorem pieces_line : ∀ {t acc b : Str}, 10 ∉ t → acc.length + t.length + 1 ≤ 255 →
    pieces acc (t ++ 10 :: b) = (acc ++ t ++ [10]) :: pieces [] b := by
  intro t
  induction t with
  | nil =>
    intro acc b _ _
    rw [List.nil_append, pieces, if_pos (Or.inl rfl), List.append_nil]
  | cons c t ih =>
    intro acc b ht hl
    have hc : c ≠ 10 := by intro h; subst h; simp at ht
    simp only [List.length_cons] at hl
    rw [List.cons_append, pieces, if_neg (by omega), ih (by simp at ht; exact ht.2) (by simp; omega)]
    simp

theorem pieces_title {l b : Str} (h : Title l) : pieces [] (l ++ b) = l :: pieces [] b := by
  obtain ⟨t, rfl, h1, h2⟩ := h
  rw [List.append_assoc, List.singleton_append, pieces_line h1 (by simp at h2 ⊢; omega)]
  rfl

theorem pieces_titles : ∀ {ls : List Str}, (∀ l ∈ ls, Title l) → pieces [] ls.flatten = ls
  | [], _ => rfl
  | l :: ls, h => by
    rw [List.flatten_cons, pieces_title (h l (by simp)), pieces_titles fun l hl => h l (by simp [hl])]

theorem lines_titles {ls : List Str} (h : ∀ l ∈ ls, Title l) : lines ls.flatten = ls.map fun l => l.takeWhile (· ≠ 0) := by
  rw [lines, pieces_titles h]

theorem blank_no10 {s : Str} (h : Blank s) : 10 ∉ s := by
  intro hm
  rcases h 10 hm with h | h <;> omega

theorem word_no10 {s : Str} (h : Word s) : 10 ∉ s := by
  intro hm
  have := h.2 10 hm
  omega

theorem decimal_no10 {d : Str} {v : Nat} (h : Decimal d v) : 10 ∉ d := by
  intro hm
  have := digit_char ((decimal_digits h).1 10 hm)
  omega

theorem row_title {l : Str} {p : Str × Nat} (h : Row l p) : Title l := by
  obtain ⟨a, b, d, r, e, ha, hw, hb, -, hd, -, -, hr, hl⟩ := h
  refine ⟨_, e, ?_, hl⟩
  simp only [List.mem_append, not_or]
  exact ⟨⟨⟨⟨blank_no10 ha, word_no10 hw⟩, blank_no10 hb⟩, decimal_no10 hd⟩, hr⟩

theorem blank_no0 {s : Str} (h : Blank s) : ∀ c ∈ s, (fun c => decide (c ≠ 0)) c = true := by
  intro c hc
  rcases h c hc with rfl | rfl <;> rfl

theorem word_no0 {s : Str} (h : Word s) : ∀ c ∈ s, (fun c => decide (c ≠ 0)) c = true := by
  intro c hc
  have := h.2 c hc
  simp; omega

theorem decimal_no0 {d : Str} {v : Nat} (h : Decimal d v) : ∀ c ∈ d, (fun c => decide (c ≠ 0)) c = true := by
  intro c hc
  have := digit_char ((decimal_digits h).1 c hc)
  simp; omega

theorem nodigit_take {r : Str} (h : NoDigit r) (p : Nat → Bool) : NoDigit (r.takeWhile p) := by
  cases r with
  | nil => trivial
  | cons c r =>
    rw [List.takeWhile_cons]
    split
    · exact h
    · trivial

theorem word_of {a w s : Str} (ha : Blank a) (hw : Word w) (hs : ∀ c ∈ s.head?, space c = true) :
    word (a ++ w ++ s) = some (w, s) := by
  have e : (a ++ w ++ s).dropWhile space = w ++ s := by
    rw [List.append_assoc, dropWhile_append_all (blank_space ha)]
    cases w with
    | nil => exact absurd rfl hw.1
    | cons c w =>
      have : space c = false := by simpa using word_char hw c (by simp)
      simp [List.dropWhile_cons, this]
  have e2 : s.takeWhile (fun c => !space c) = [] ∧ s.dropWhile (fun c => !space c) = s := by
    cases s with
    | nil => exact ⟨rfl, rfl⟩
    | cons c s => simp [List.takeWhile_cons, List.dropWhile_cons, hs c rfl]
  unfold word
  simp only [e]
  rw [if_neg (by simp [hw.1]), takeWhile_append_all (word_char hw), dropWhile_append_all (word_char hw), e2.1, e2.2, List.append_nil]

theorem head_blank {b s : Str} (h : Blank b) (hb : b ≠ []) : ∀ c ∈ (b ++ s).head?, space c = true := by
  cases b with
  | nil => exact absurd rfl hb
  | cons c b =>
    intro x hx
    simp at hx
    subst hx
    exact blank_space h c (by simp)

theorem pair_row {l : Str} {p : Str × Nat} (h : Row l p) : pair (l.takeWhile (· ≠ 0)) = some p := by
  obtain ⟨a, b, d, r, e, ha, hw, hb, hb0, hd, hv, hr, -, -⟩ := h
  have : l.takeWhile (· ≠ 0) = a ++ p.1 ++ (b ++ d ++ (r ++ [10]).takeWhile (· ≠ 0)) := by
    rw [e]
    simp only [List.append_assoc]
    rw [takeWhile_append_all (blank_no0 ha), takeWhile_append_all (word_no0 hw), takeWhile_append_all (blank_no0 hb),
      takeWhile_append_all (decimal_no0 hd)]
  have hr' : NoDigit ((r ++ [10]).takeWhile (· ≠ 0)) := nodigit_take (nodigit_append hr (by simp [NoDigit])) _
  rw [this, pair, word_of ha hw (by rw [List.append_assoc]; exact head_blank hb hb0)]
  simp only
  rw [number_of hb hd hv hr']
  rfl

theorem forall2_left {α β : Type} {R : α → β → Prop} {as : List α} {bs : List β} (h : List.Forall₂ R as bs) :
    ∀ a ∈ as, ∃ b ∈ bs, R a b := by
  induction h with
  | nil => simp
  | cons h1 _ ih =>
    intro a ha
    rcases List.mem_cons.1 ha with rfl | ha
    · exact ⟨_, by simp, h1⟩
    · obtain ⟨b, hb, hr⟩ := ih a ha
      exact ⟨b, by simp [hb], hr⟩

theorem says_lines {f : Str} {rows : List (Str × Nat)} (h : Says f rows) : (lines f).map pair = rows.map some := by
  obtain ⟨ls, rfl, h⟩ := h
  rw [lines_titles (by
    intro l hl
    obtain ⟨p, -, hp⟩ := forall2_left h l hl
    exact row_title hp), List.map_map]
  induction h with
  | nil => rfl
  | cons h1 _ ih => rw [List.map_cons, List.map_cons, Function.comp_apply, pair_row h1, ih]

end Verif.ProcSamp
