import Verif.RowJson.Print

/-! # Proofs about reading -/

namespace Verif.RowJson

/-! ## Decimal numbers -/

theorem digit_cases {n : Nat} (h : n < 10) :
    (digit n).isDigit = true ∧ (digit n).toNat - 48 = n ∧ (digit n = '0' ↔ n = 0) := by
  have : ∀ n : Fin 10, (digit n).isDigit = true ∧ (digit n).toNat - 48 = n ∧
      (digit n = '0' ↔ n.val = 0) := by decide
  exact this ⟨n, h⟩

theorem natOf_append (l m : List Char) : natOf (l ++ m) = natOf l * 10 ^ m.length + natOf m := by
  have key : ∀ (m : List Char) (a : Nat),
      m.foldl (fun n c => n * 10 + (c.toNat - 48)) a = a * 10 ^ m.length + natOf m := by
    intro m
    induction m with
    | nil => intro a; simp [natOf]
    | cons c m ih =>
      intro a
      have e : natOf (c :: m) =
        m.foldl (fun n c => n * 10 + (c.toNat - 48)) (0 * 10 + (c.toNat - 48)) := rfl
      rw [List.foldl_cons, ih, e, ih, List.length_cons, Nat.pow_succ]
      simp only [Nat.add_mul, Nat.zero_mul, Nat.zero_add, Nat.mul_assoc,
        Nat.mul_comm (10 ^ m.length) 10]
      omega
  rw [natOf, List.foldl_append, key]
  rfl

theorem dec_facts (n : Nat) : (∀ c ∈ dec n, c.isDigit = true) ∧ natOf (dec n) = n ∧
    dec n ≠ [] ∧ (∀ r, dec n = '0' :: r → r = []) := by
  induction n using Nat.strongRecOn with
  | ind n ih =>
    rw [dec]
    split
    · rename_i h
      obtain ⟨h1, h2, h3⟩ := digit_cases h
      refine ⟨by simpa using h1, by simpa [natOf] using h2, by simp, ?_⟩
      intro r hr
      simp only [List.cons.injEq] at hr
      exact hr.2.symm
    · rename_i h
      obtain ⟨i1, i2, i3, i4⟩ := ih (n / 10) (by omega)
      obtain ⟨h1, h2, _⟩ := digit_cases (n := n % 10) (by omega)
      refine ⟨?_, ?_, by simp, ?_⟩
      · intro c hc
        rcases List.mem_append.mp hc with hc | hc
        · exact i1 c hc
        · rw [List.mem_singleton.mp hc]; exact h1
      · rw [natOf_append, i2]
        simp only [natOf, List.length_singleton, List.foldl_cons, List.foldl_nil]
        omega
      · intro r hr
        cases hd : dec (n / 10) with
        | nil => exact absurd hd i3
        | cons c l =>
          rw [hd] at hr
          simp only [List.cons_append, List.cons.injEq] at hr
          have hl := i4 l (by rw [hd, hr.1])
          have : natOf (dec (n / 10)) = 0 := by rw [hd, hr.1, hl]; rfl
          omega

theorem dec_length {k : Nat} : ∀ {n : Nat}, n < 10 ^ k → 0 < k → (dec n).length ≤ k := by
  induction k with
  | zero => intro n _ h; omega
  | succ k ih =>
    intro n hn _
    rw [dec]
    split
    · simp
    · rename_i h
      have hk : 0 < k := by
        rcases Nat.eq_zero_or_pos k with rfl | h'
        · simp at hn; omega
        · exact h'
      have := ih (n := n / 10) (by rw [Nat.pow_succ] at hn; omega) hk
      simp only [List.length_append, List.length_singleton]
      omega

theorem dec_pos (n : Nat) : 0 < (dec n).length :=
  List.length_pos_iff.mpr (dec_facts n).2.2.1

/-- A text that ends a number. -/
def Ends : List Char → Prop
  | [] => True
  | c :: _ => c = ',' ∨ c = ']' ∨ c = '}' ∨ c = ' '

theorem Ends.digits {r : List Char} (h : Ends r) : digits r = ([], r) := by
  cases r with
  | nil => rfl
  | cons c r =>
    simp only [RowJson.digits]
    rw [if_neg]
    rcases h with rfl | rfl | rfl | rfl <;> decide

theorem digits_append {l r : List Char} (hl : ∀ c ∈ l, c.isDigit = true)
    (hr : digits r = ([], r)) : digits (l ++ r) = (l, r) := by
  induction l with
  | nil => exact hr
  | cons c l ih =>
    rw [List.cons_append, digits, if_pos (hl c (by simp)),
      ih fun c hc => hl c (List.mem_cons_of_mem _ hc)]

theorem intPart_dec (n : Nat) {r : List Char} (hr : digits r = ([], r)) :
    intPart (dec n ++ r) = some (dec n, r) := by
  obtain ⟨h1, _, h3, h4⟩ := dec_facts n
  rw [intPart, digits_append h1 hr]
  split
  · rename_i h; simp only [Prod.mk.injEq] at h; exact absurd h.1 h3
  · rename_i h
    simp only [Prod.mk.injEq] at h
    have := h4 _ h.1
    cases this
  · rfl

theorem Ends.fracPart {r : List Char} (h : Ends r) : fracPart r = some ([], r) := by
  unfold RowJson.fracPart
  split
  · simp [Ends] at h
  · rfl

theorem Ends.expPart {r : List Char} (h : Ends r) : expPart r = some (0, r) := by
  unfold RowJson.expPart
  split
  · simp [Ends] at h
  · simp [Ends] at h
  · rfl

theorem dec_not_minus (n : Nat) (r : List Char) : ∀ s, dec n ++ r ≠ '-' :: s := by
  intro s h
  obtain ⟨h1, _, h3, _⟩ := dec_facts n
  cases hd : dec n with
  | nil => exact h3 hd
  | cons c l =>
    rw [hd] at h h1
    simp only [List.cons_append, List.cons.injEq] at h
    have := h1 c (by simp)
    rw [h.1] at this
    revert this
    decide

theorem number_of_unsigned {s : List Char} (h : ∀ t, s ≠ '-' :: t) :
    number s = unsigned false s := by
  unfold number
  split
  · exact absurd rfl (h _)
  · rfl

theorem unsigned_dec (neg : Bool) (n : Nat) {r : List Char} (hr : Ends r) :
    unsigned neg (dec n ++ r) = some (.num (if neg then -(n : Int) else n) 0, r) := by
  rw [unsigned, intPart_dec n hr.digits]
  simp only
  rw [hr.fracPart]
  simp only
  rw [hr.expPart]
  simp only [List.append_nil, (dec_facts n).2.1]
  rfl

theorem number_decInt (v : Int) {r : List Char} (hr : Ends r) :
    number (decInt v ++ r) = some (.num v 0, r) := by
  unfold decInt
  split
  · rename_i h
    rw [List.cons_append]
    show unsigned true _ = _
    rw [unsigned_dec true _ hr]
    simp only [if_true, Option.some.injEq, Prod.mk.injEq, JVal.num.injEq, and_true]
    omega
  · rw [number_of_unsigned (dec_not_minus _ _), unsigned_dec false _ hr]
    simp only [Bool.false_eq_true, if_false, Option.some.injEq, Prod.mk.injEq, JVal.num.injEq,
      and_true]
    omega

theorem natOf_zeros (k : Nat) (l : List Char) : natOf (List.replicate k '0' ++ l) = natOf l := by
  induction k with
  | zero => simp
  | succ k ih =>
    rw [List.replicate_succ, List.cons_append]
    rw [show natOf ('0' :: (List.replicate k '0' ++ l)) =
      natOf (List.replicate k '0' ++ l) from rfl, ih]

theorem dec6_facts {n : Nat} (h : n < 1000000) : (dec6 n).length = 6 ∧ natOf (dec6 n) = n ∧
    ∀ c ∈ dec6 n, c.isDigit = true := by
  have hl := dec_length (k := 6) (n := n) (by simpa using h) (by omega)
  refine ⟨?_, ?_, ?_⟩
  · simp only [dec6, List.length_append, List.length_replicate]; omega
  · rw [dec6, natOf_zeros, (dec_facts n).2.1]
  · intro c hc
    rcases List.mem_append.mp hc with hc | hc
    · rw [(List.mem_replicate.mp hc).2]; rfl
    · exact (dec_facts n).1 c hc

theorem number_ts {sec usec : Nat} (h : usec < 1000000) {r : List Char} (hr : Ends r) :
    number ((dec sec ++ '.' :: dec6 usec) ++ r) =
      some (.num (sec * 1000000 + usec) (-6), r) := by
  obtain ⟨h1, h2, h3⟩ := dec6_facts h
  rw [List.append_assoc, number_of_unsigned (dec_not_minus _ _), unsigned,
    intPart_dec sec (by simp [digits])]
  simp only
  have hf : fracPart ('.' :: dec6 usec ++ r) = some (dec6 usec, r) := by
    rw [List.cons_append, fracPart]
    rw [digits_append h3 hr.digits]
    split
    · rename_i hx
      simp only [Prod.mk.injEq] at hx
      rw [hx.1] at h1
      simp at h1
    · rfl
  rw [hf]
  simp only
  rw [hr.expPart]
  simp only [natOf_append, (dec_facts sec).2.1, h1, h2, Bool.false_eq_true, if_false]
  simp

/-! Numbers read at the end of a text are read before a delimiter as well. -/

theorem digits_split : ∀ (s : List Char), s = (digits s).1 ++ (digits s).2
  | [] => rfl
  | c :: s => by
    rw [digits]
    split
    · rw [List.cons_append, ← digits_split s]
    · rfl

theorem digits_more {r : List Char} (hr : Ends r) : ∀ (s : List Char),
    digits (s ++ r) = ((digits s).1, (digits s).2 ++ r)
  | [] => by rw [List.nil_append, hr.digits]; rfl
  | c :: s => by
    rw [List.cons_append, digits, digits]
    split
    · rw [digits_more hr s]
    · rfl

theorem intPart_more {r : List Char} (hr : Ends r) {s d t : List Char}
    (h : intPart s = some (d, t)) : intPart (s ++ r) = some (d, t ++ r) := by
  unfold intPart at h ⊢
  rw [digits_more hr]
  revert h
  cases hd : digits s with
  | mk a b =>
    intro h
    simp only at h ⊢
    split at h
    · cases h
    · cases h
    · rename_i p hp1 hp2
      simp only [Option.some.injEq, Prod.mk.injEq] at h
      obtain ⟨rfl, rfl⟩ := h
      split
      · rename_i hx
        simp only [Prod.mk.injEq] at hx
        exact absurd (by rw [hx.1]) (hp1 b)
      · rename_i hx
        simp only [Prod.mk.injEq] at hx
        exact absurd (by rw [hx.1]) (hp2 _ _ b)
      · rfl

theorem fracPart_more {r : List Char} (hr : Ends r) {s d t : List Char}
    (h : fracPart s = some (d, t)) : fracPart (s ++ r) = some (d, t ++ r) := by
  cases s with
  | nil =>
    cases h
    simpa using hr.fracPart
  | cons c s =>
    by_cases hc : c = '.'
    · subst hc
      rw [List.cons_append]
      simp only [fracPart] at h ⊢
      rw [digits_more hr]
      revert h
      cases hd : digits s with
      | mk a b =>
        intro h
        simp only at h ⊢
        cases a with
        | nil => cases h
        | cons x a =>
          simp only [Option.some.injEq, Prod.mk.injEq] at h ⊢
          obtain ⟨rfl, rfl⟩ := h
          exact ⟨rfl, rfl⟩
    · have e : ∀ s, fracPart (c :: s) = some ([], c :: s) := by
        intro s
        unfold fracPart
        split
        · rename_i hx
          simp only [List.cons.injEq] at hx
          exact absurd hx.1 hc
        · rfl
      rw [e] at h
      rw [List.cons_append, e]
      cases h
      rfl

theorem expDigits_more {r : List Char} (hr : Ends r) {neg : Bool} {s : List Char} {e : Int}
    {t : List Char} (h : expDigits neg s = some (e, t)) :
    expDigits neg (s ++ r) = some (e, t ++ r) := by
  unfold expDigits at h ⊢
  rw [digits_more hr]
  revert h
  cases hd : digits s with
  | mk a b =>
    intro h
    simp only at h ⊢
    cases a with
    | nil => cases h
    | cons x a =>
      simp only [Option.some.injEq, Prod.mk.injEq] at h ⊢
      obtain ⟨rfl, rfl⟩ := h
      exact ⟨rfl, rfl⟩

theorem expSigned_other {c : Char} (s : List Char) (h1 : c ≠ '-') (h2 : c ≠ '+') :
    expSigned (c :: s) = expDigits false (c :: s) := by
  unfold expSigned
  split
  · rename_i hx; simp only [List.cons.injEq] at hx; exact absurd hx.1 h1
  · rename_i hx; simp only [List.cons.injEq] at hx; exact absurd hx.1 h2
  · rfl

theorem expSigned_more {r : List Char} (hr : Ends r) {s : List Char} {e : Int}
    {t : List Char} (h : expSigned s = some (e, t)) : expSigned (s ++ r) = some (e, t ++ r) := by
  cases s with
  | nil => cases h
  | cons c s =>
    rw [List.cons_append]
    by_cases h1 : c = '-'
    · subst h1; exact expDigits_more hr h
    · by_cases h2 : c = '+'
      · subst h2; exact expDigits_more hr h
      · rw [expSigned_other _ h1 h2] at h ⊢
        exact expDigits_more hr h

theorem expPart_other {c : Char} (s : List Char) (h1 : c ≠ 'e') (h2 : c ≠ 'E') :
    expPart (c :: s) = some (0, c :: s) := by
  unfold expPart
  split
  · rename_i hx; simp only [List.cons.injEq] at hx; exact absurd hx.1 h1
  · rename_i hx; simp only [List.cons.injEq] at hx; exact absurd hx.1 h2
  · rfl

theorem expPart_more {r : List Char} (hr : Ends r) {s : List Char} {e : Int}
    {t : List Char} (h : expPart s = some (e, t)) : expPart (s ++ r) = some (e, t ++ r) := by
  cases s with
  | nil =>
    cases h
    simpa using hr.expPart
  | cons c s =>
    rw [List.cons_append]
    by_cases h1 : c = 'e'
    · subst h1; exact expSigned_more hr h
    · by_cases h2 : c = 'E'
      · subst h2; exact expSigned_more hr h
      · rw [expPart_other _ h1 h2] at h ⊢
        cases h
        rfl

theorem unsigned_more {r : List Char} (hr : Ends r) {neg : Bool} {s : List Char} {v : JVal}
    {t : List Char} (h : unsigned neg s = some (v, t)) :
    unsigned neg (s ++ r) = some (v, t ++ r) := by
  unfold unsigned at h ⊢
  cases h1 : intPart s with
  | none => rw [h1] at h; cases h
  | some p =>
    obtain ⟨i, s1⟩ := p
    rw [h1] at h
    rw [intPart_more hr h1]
    simp only at h ⊢
    cases h2 : fracPart s1 with
    | none => rw [h2] at h; cases h
    | some p =>
      obtain ⟨f, s2⟩ := p
      rw [h2] at h
      rw [fracPart_more hr h2]
      simp only at h ⊢
      cases h3 : expPart s2 with
      | none => rw [h3] at h; cases h
      | some p =>
        obtain ⟨e, s3⟩ := p
        rw [h3] at h
        rw [expPart_more hr h3]
        simp only [Option.some.injEq, Prod.mk.injEq] at h ⊢
        exact ⟨h.1, by rw [h.2]⟩

theorem number_other {c : Char} (s : List Char) (h : c ≠ '-') :
    number (c :: s) = unsigned false (c :: s) :=
  number_of_unsigned fun t ht => by
    simp only [List.cons.injEq] at ht
    exact h ht.1

theorem number_more {r : List Char} (hr : Ends r) {s : List Char} {v : JVal}
    {t : List Char} (h : number s = some (v, t)) : number (s ++ r) = some (v, t ++ r) := by
  cases s with
  | nil => cases h
  | cons c s =>
    rw [List.cons_append]
    by_cases hc : c = '-'
    · subst hc; exact unsigned_more hr h
    · rw [number_other _ hc] at h ⊢
      exact unsigned_more hr h

/-- The first character of a number. -/
theorem number_head {s : List Char} {v : JVal} {t : List Char} (h : number s = some (v, t)) :
    ∃ c l, s = c :: l ∧ (c = '-' ∨ c.isDigit = true) := by
  cases s with
  | nil => cases h
  | cons c s =>
    refine ⟨c, s, rfl, ?_⟩
    by_cases hc : c = '-'
    · exact .inl hc
    · right
      rw [number_other _ hc, unsigned] at h
      cases hi : intPart (c :: s) with
      | none => rw [hi] at h; cases h
      | some p =>
        rw [intPart, digits] at hi
        split at hi
        · cases hi
        · rename_i hx
          split at hx
          · assumption
          · cases hx
        · rename_i hx _
          by_cases hd : c.isDigit = true
          · exact hd
          · rw [if_neg hd] at hx
            exact absurd rfl (hx (c :: s))

end Verif.RowJson
