import Verif.LabelSet.Spec
import Mathlib.Tactic.Tauto

/-!
# Lemmas about label sets
-/

namespace Verif.LabelSet

theorem alnum_iff {c : Nat} : isalnum c = true ↔ Alnum c := by
  simp only [isalnum, Alnum, Bool.or_eq_true, Bool.and_eq_true, decide_eq_true_eq]
  omega

theorem word_iff {c : Nat} : (c == 95 || isalnum c) = true ↔ Plain c := by
  rw [Bool.or_eq_true, alnum_iff, beq_iff_eq, Plain]
  exact or_comm

instance (c : Nat) : Decidable (Alnum c) := by unfold Alnum; infer_instance
instance (c : Nat) : Decidable (Plain c) := by unfold Plain; infer_instance

/-! ### the encoding of the hash -/

theorem tab62_alnum : ∀ c ∈ tab62, Alnum c := by decide

theorem tab62_get {n : Nat} : Alnum (tab62.getD (n % 62) 0) := by
  have h : n % 62 < tab62.length := Nat.mod_lt _ (by decide)
  rw [List.getD_eq_getElem?_getD, List.getElem?_eq_getElem h]
  exact tab62_alnum _ (List.getElem_mem h)

theorem digits62_alnum : ∀ {k n : Nat}, ∀ c ∈ digits62 k n, Alnum c
  | 0, _, c, h => by simp [digits62] at h
  | k + 1, n, c, h => by
    rcases List.mem_cons.1 h with rfl | h
    · exact tab62_get
    · exact digits62_alnum c h

theorem digits62_length : ∀ {k n : Nat}, (digits62 k n).length = k
  | 0, _ => rfl
  | k + 1, n => by simp [digits62, digits62_length]

theorem tab62_inj {a b : Nat} (h : tab62.getD (a % 62) 0 = tab62.getD (b % 62) 0) : a % 62 = b % 62 := by
  have ha : a % 62 < tab62.length := Nat.mod_lt _ (by decide)
  have hb : b % 62 < tab62.length := Nat.mod_lt _ (by decide)
  rw [List.getD_eq_getElem?_getD, List.getElem?_eq_getElem ha, List.getD_eq_getElem?_getD, List.getElem?_eq_getElem hb] at h
  have hn : tab62.Nodup := by decide
  exact (List.getElem_inj hn).1 h

theorem digits62_inj : ∀ {k a b : Nat}, a < 62 ^ k → b < 62 ^ k → digits62 k a = digits62 k b → a = b
  | 0, a, b, ha, hb, _ => by omega
  | k + 1, a, b, ha, hb, h => by
    simp only [digits62, List.cons.injEq] at h
    have h1 := tab62_inj h.1
    have h2 := digits62_inj (a := a / 62) (b := b / 62) (by rw [Nat.pow_succ] at ha; omega) (by rw [Nat.pow_succ] at hb; omega) h.2
    omega

theorem encode_length {v : Nat} : (encode v).length = 12 := by simp [encode, digits62_length]

theorem encode_alnum {v : Nat} : ∀ c ∈ encode v, Alnum c := by
  intro c h
  rcases List.mem_append.1 h with h | h <;> exact digits62_alnum c h

theorem encode_inj {v w : Nat} (hv : v < 2 ^ 64) (hw : w < 2 ^ 64) (h : encode v = encode w) : v = w := by
  unfold encode at h
  obtain ⟨h1, h2⟩ := List.append_inj h (by simp [digits62_length])
  have b : ∀ v i, byte v i < 256 := fun v i => Nat.mod_lt _ (by decide)
  have h1 := digits62_inj (by have := b v 0; have := b v 1; have := b v 2; have := b v 3; have := b v 4; omega)
    (by have := b w 0; have := b w 1; have := b w 2; have := b w 3; have := b w 4; omega) h1
  have h2 := digits62_inj (by have := b v 5; have := b v 6; have := b v 7; omega) (by have := b w 5; have := b w 6; have := b w 7; omega) h2
  have := b v 0; have := b v 1; have := b v 2; have := b v 3; have := b v 4; have := b v 5; have := b v 6; have := b v 7
  have := b w 0; have := b w 1; have := b w 2; have := b w 3; have := b w 4; have := b w 5; have := b w 6; have := b w 7
  have e0 : byte v 0 = byte w 0 := by omega
  have e1 : byte v 1 = byte w 1 := by omega
  have e2 : byte v 2 = byte w 2 := by omega
  have e3 : byte v 3 = byte w 3 := by omega
  have e4 : byte v 4 = byte w 4 := by omega
  have e5 : byte v 5 = byte w 5 := by omega
  have e6 : byte v 6 = byte w 6 := by omega
  have e7 : byte v 7 = byte w 7 := by omega
  clear h h1 h2 b
  simp only [byte] at e0 e1 e2 e3 e4 e5 e6 e7
  omega

theorem shorten_mem {P : Nat → Prop} {max h : Nat} {t : Str} (ht : ∀ c ∈ t, P c) (hp : ∀ c, Alnum c → P c) : ∀ c ∈ shorten max h t, P c := by
  unfold shorten
  split
  · exact ht
  · split
    · exact ht
    · intro c hc
      rcases List.mem_append.1 hc with hc | hc
      · exact ht c (List.mem_of_mem_take hc)
      · exact hp c (encode_alnum c hc)

theorem shorten_length {max h : Nat} {t : Str} (hm : 12 ≤ max) : (shorten max h t).length ≤ max := by
  unfold shorten
  split
  · assumption
  · rw [if_neg (by omega), List.length_append, List.length_take, encode_length]
    omega

theorem shorten_ne {max h : Nat} {t : Str} (ht : t ≠ []) : shorten max h t ≠ [] := by
  unfold shorten
  split
  · exact ht
  · split
    · exact ht
    · intro e
      have := congrArg List.length e
      rw [List.length_append, encode_length] at this
      simp at this

theorem shorten_id {max h : Nat} {t : Str} (ht : t.length ≤ max) : shorten max h t = t := by
  unfold shorten; rw [if_pos ht]

/-! ### the translations -/

theorem munged_plain (c : Nat) : ∀ x ∈ munged c, Plain x := by
  have h : ∀ t ∈ munge, ∀ x ∈ t, Plain x := by decide +kernel
  have hl : c % 128 < munge.length := by
    have : munge.length = 128 := by decide +kernel
    omega
  unfold munged
  rw [List.getD_eq_getElem?_getD, List.getElem?_eq_getElem hl]
  exact h _ (List.getElem_mem hl)

theorem munged_ne (c : Nat) : munged c ≠ [] := by
  have h : ∀ t ∈ munge, t ≠ [] := by decide +kernel
  have hl : c % 128 < munge.length := by
    have : munge.length = 128 := by decide +kernel
    omega
  unfold munged
  rw [List.getD_eq_getElem?_getD, List.getElem?_eq_getElem hl]
  exact h _ (List.getElem_mem hl)

theorem munged_self {c : Nat} (h : Plain c) : munged c = [c] := by
  have hc : c < 128 := by unfold Plain Alnum at h; omega
  have : ∀ c < 128, Plain c → munged c = [c] := by decide +kernel
  exact this c hc h

theorem alnum_plain : ∀ {b : Bool} {s : Str}, ∀ c ∈ alnum b s, Plain c
  | _, [], c, h => by simp [alnum] at h
  | b, x :: s, c, h => by
    rcases List.mem_append.1 h with h | h
    · split at h <;> exact munged_plain _ c h
    · exact alnum_plain c h

theorem alnum_ne {b : Bool} {s : Str} (h : s ≠ []) : alnum b s ≠ [] := by
  cases s with
  | nil => exact absurd rfl h
  | cons x s =>
    rw [alnum]
    intro e
    have := (List.append_eq_nil_iff.1 e).1
    split at this <;> exact munged_ne _ this

theorem alnum_false : ∀ {s : Str}, (∀ c ∈ s, Plain c) → alnum false s = s
  | [], _ => rfl
  | c :: s, h => by
    rw [alnum, alnum_false fun x hx => h x (by simp [hx])]
    simp [munged_self (h c (by simp))]

theorem alnum_clean {b : Bool} {s : Str} (h : ∀ c ∈ s, Plain c) (hb : b = true → s.head? ≠ some 95) : alnum b s = s := by
  cases s with
  | nil => rfl
  | cons c s =>
    have hc : (b && c == 95) = false := by
      cases b with
      | false => rfl
      | true => have := hb rfl; simpa using this
    rw [alnum, hc, alnum_false fun x hx => h x (by simp [hx])]
    simp [munged_self (h c (by simp))]

theorem map_ok {f : Str → Str} {r : Out Str} {t : Str} (h : r.map f = .ok t) : ∃ u, r = .ok u ∧ t = f u := by
  cases r with
  | error x => cases h
  | ok u => cases h; exact ⟨u, rfl, rfl⟩

theorem ubarLoop_plain : ∀ {s t : Str}, ubarLoop s = .ok t → (∀ c ∈ t, Plain c) ∧ (s ≠ [] → t ≠ [])
  | [], t, h => by cases h; simp
  | c :: s, t, h => by
    rw [ubarLoop] at h
    by_cases h1 : (c == 95 || isalnum c) = true
    · rw [if_pos h1] at h
      obtain ⟨u, hu, rfl⟩ := map_ok h
      refine ⟨?_, by simp⟩
      intro x hx
      rcases List.mem_cons.1 hx with rfl | hx
      · exact word_iff.1 h1
      · exact (ubarLoop_plain hu).1 x hx
    · rw [if_neg h1] at h
      split at h
      · obtain ⟨u, hu, rfl⟩ := map_ok h
        refine ⟨?_, by simp⟩
        intro x hx
        rcases List.mem_cons.1 hx with rfl | hx
        · exact .inr rfl
        · exact (ubarLoop_plain hu).1 x hx
      · cases h

theorem ubar_plain {b : Bool} {s t : Str} (h : ubar b s = .ok t) : (∀ c ∈ t, Plain c) ∧ (s ≠ [] → t ≠ []) := by
  cases s with
  | nil => cases h; simp
  | cons c s =>
    rw [ubar] at h
    split at h
    · obtain ⟨u, hu, rfl⟩ := map_ok h
      refine ⟨?_, by simp⟩
      intro x hx
      rcases List.mem_cons.1 hx with rfl | hx
      · exact .inl (by unfold Alnum; omega)
      · exact (ubarLoop_plain hu).1 x hx
    · exact ubarLoop_plain h

theorem ubarLoop_clean : ∀ {s : Str}, (∀ c ∈ s, Plain c) → ubarLoop s = .ok s
  | [], _ => rfl
  | c :: s, h => by
    rw [ubarLoop, if_pos (word_iff.2 (h c (by simp))), ubarLoop_clean fun x hx => h x (by simp [hx])]
    rfl

theorem plain_class {c : Nat} (h : Alnum c) : (iscntrl c || ispunct c || isspace c) = false := by
  unfold Alnum at h
  simp only [iscntrl, ispunct, isspace, Bool.or_eq_false_iff, Bool.and_eq_false_iff, decide_eq_false_iff_not, beq_eq_false_iff_ne]
  omega

theorem ubar_clean {b : Bool} {s : Str} (h : ∀ c ∈ s, Plain c) (hb : b = true → s.head? ≠ some 95) : ubar b s = .ok s := by
  cases s with
  | nil => rfl
  | cons c s =>
    rw [ubar, if_neg ?_]
    · exact ubarLoop_clean h
    · intro hh
      rw [Bool.and_eq_true] at hh
      have h95 := hb hh.1
      have hc := h c (by simp)
      rcases hc with hc | hc
      · have := plain_class hc
        have hne : (c == 95) = false := by unfold Alnum at hc; rw [beq_eq_false_iff_ne]; omega
        rw [hne, Bool.false_or, this] at hh
        cases hh.2
      · subst hc
        exact h95 rfl

/-- bytes below 128 are in one of the classes, the others in none -/
theorem classes (c : Nat) : (c == 95 || isalnum c || iscntrl c || ispunct c || isspace c) = decide (c < 128) := by
  by_cases h : c < 128
  · have : ∀ c < 128, (c == 95 || isalnum c || iscntrl c || ispunct c || isspace c) = true := by decide
    rw [this c h]; simp [h]
  · simp only [isalnum, iscntrl, ispunct, isspace, h, decide_false, Bool.or_eq_false_iff, Bool.and_eq_false_iff, decide_eq_false_iff_not, beq_eq_false_iff_ne]
    omega

theorem ubarLoop_ascii : ∀ {s : Str}, (∃ t, ubarLoop s = .ok t) ↔ ∀ c ∈ s, c < 128
  | [] => by simp [ubarLoop]
  | c :: s => by
    have ih := ubarLoop_ascii (s := s)
    have hcl := classes c
    rw [ubarLoop]
    simp only [List.mem_cons, forall_eq_or_imp]
    rw [← ih]
    by_cases h1 : (c == 95 || isalnum c) = true
    · rw [if_pos h1]
      rw [h1] at hcl
      have : c < 128 := by simpa using hcl.symm
      constructor
      · rintro ⟨t, ht⟩
        obtain ⟨u, hu, -⟩ := map_ok ht
        exact ⟨this, u, hu⟩
      · rintro ⟨-, u, hu⟩
        exact ⟨_, by rw [hu]; rfl⟩
    · rw [if_neg h1]
      have h1 : (c == 95 || isalnum c) = false := by simpa using h1
      rw [h1, Bool.false_or] at hcl
      by_cases h2 : (iscntrl c || ispunct c || isspace c) = true
      · rw [if_pos h2]
        rw [h2] at hcl
        have : c < 128 := by simpa using hcl.symm
        constructor
        · rintro ⟨t, ht⟩
          obtain ⟨u, hu, -⟩ := map_ok ht
          exact ⟨this, u, hu⟩
        · rintro ⟨-, u, hu⟩
          exact ⟨_, by rw [hu]; rfl⟩
      · rw [if_neg h2]
        have h2 : (iscntrl c || ispunct c || isspace c) = false := by simpa using h2
        rw [h2] at hcl
        have : ¬ c < 128 := by simpa using hcl.symm
        constructor
        · rintro ⟨t, ht⟩; cases ht
        · rintro ⟨h, -⟩; exact absurd h this

theorem ubar_ascii {b : Bool} {s : Str} : (∃ t, ubar b s = .ok t) ↔ ∀ c ∈ s, c < 128 := by
  cases s with
  | nil => simp [ubar]
  | cons c s =>
    rw [ubar]
    split
    · rename_i h
      rw [Bool.and_eq_true] at h
      have hc : c < 128 := by
        have hcl := classes c
        have : (c == 95 || isalnum c || iscntrl c || ispunct c || isspace c) = true := by
          simp only [Bool.or_eq_true] at h ⊢
          tauto
        rw [this] at hcl
        simpa using hcl.symm
      simp only [List.mem_cons, forall_eq_or_imp]
      rw [← ubarLoop_ascii]
      constructor
      · rintro ⟨t, ht⟩
        obtain ⟨u, hu, -⟩ := map_ok ht
        exact ⟨hc, u, hu⟩
      · rintro ⟨-, u, hu⟩
        exact ⟨_, by rw [hu]; rfl⟩
    · exact ubarLoop_ascii

theorem hexDigit_alnum {n : Nat} (h : n < 16) : Alnum (hexDigit n) := by
  unfold hexDigit Alnum; split <;> omega

theorem hexByte_alnum {c : Nat} (h : c < 128) : ∀ x ∈ hexByte c, Alnum x := by
  unfold hexByte
  split
  · intro x hx; simp at hx; subst hx; exact hexDigit_alnum (by omega)
  · intro x hx
    simp at hx
    rcases hx with rfl | rfl
    · exact hexDigit_alnum (by omega)
    · exact hexDigit_alnum (by omega)

theorem hexByte_ne {c : Nat} : hexByte c ≠ [] := by unfold hexByte; split <;> simp

/-- one byte of `hex`: it is passed exactly if it is below 128, and what is written is of the alphabet -/
theorem hex_cons {sep : Nat} {first : Bool} {p : Phase} {c : Nat} {s : Str} :
    (c < 128 → ∃ q v, v ≠ [] ∧ (∀ x ∈ v, Plain x ∨ x = sep) ∧ hex sep first p (c :: s) = (hex sep false q s).map (v ++ ·) ∧
      (p = .word → Plain c → q = .word ∧ v = [c])) ∧
    (¬ c < 128 → hex sep first p (c :: s) = .error .hang) := by
  have hcl := classes c
  have hw : (c == 95 || isalnum c) = true → ∃ q v, v ≠ [] ∧ (∀ x ∈ v, Plain x ∨ x = sep) ∧
      (hex sep false .word s).map (c :: ·) = (hex sep false q s).map (v ++ ·) ∧ (p = .word → Plain c → q = .word ∧ v = [c]) := by
    intro h
    exact ⟨.word, [c], by simp, by simp; exact .inl (word_iff.1 h), rfl, fun _ _ => ⟨rfl, rfl⟩⟩
  have hs : (p = .word → ¬ Plain c) → ∃ q v, v ≠ [] ∧ (∀ x ∈ v, Plain x ∨ x = sep) ∧
      (hex sep false .space s).map (95 :: ·) = (hex sep false q s).map (v ++ ·) ∧ (p = .word → Plain c → q = .word ∧ v = [c]) := by
    intro h
    exact ⟨.space, [95], by simp, by simp; exact .inl (.inr rfl), rfl, fun h1 h2 => absurd h2 (h h1)⟩
  have hp : c < 128 → (p = .word → ¬ Plain c) → ∃ q v, v ≠ [] ∧ (∀ x ∈ v, Plain x ∨ x = sep) ∧
      (hex sep false .punct s).map ((if first then [] else [sep]) ++ hexByte c ++ ·) = (hex sep false q s).map (v ++ ·) ∧
      (p = .word → Plain c → q = .word ∧ v = [c]) := by
    intro hc h
    refine ⟨.punct, (if first then [] else [sep]) ++ hexByte c, ?_, ?_, rfl, fun h1 h2 => absurd h2 (h h1)⟩
    · intro e; exact hexByte_ne (List.append_eq_nil_iff.1 e).2
    · intro x hx
      rcases List.mem_append.1 hx with hx | hx
      · cases first <;> simp at hx; exact .inr hx
      · exact .inl (.inl (hexByte_alnum hc x hx))
  constructor
  · intro hc
    have hcl : (c == 95 || isalnum c || iscntrl c || ispunct c || isspace c) = true := by rw [hcl]; simpa using hc
    rw [hex.eq_def]
    by_cases h1 : (c == 95 || isalnum c) = true
    · cases p
      · dsimp only; rw [if_pos h1]; exact hw h1
      · dsimp only
        by_cases h2 : isspace c = true
        · rw [if_pos h2]; exact hs (by simp)
        · rw [if_neg h2]
          by_cases h3 : (iscntrl c || ispunct c) = true
          · rw [if_pos h3]; exact hp hc (by simp)
          · rw [if_neg h3, if_pos h1]; exact hw h1
      · dsimp only
        by_cases h3 : (iscntrl c || ispunct c) = true
        · rw [if_pos h3]; exact hp hc (by simp)
        · rw [if_neg h3, if_pos h1]; exact hw h1
    · have hnp : ¬ Plain c := fun h => h1 (word_iff.2 h)
      cases p
      · dsimp only
        rw [if_neg h1]
        by_cases h2 : isspace c = true
        · rw [if_pos h2]; exact hs fun _ => hnp
        · rw [if_neg h2]
          rw [if_pos (by
            simp only [Bool.or_eq_true] at hcl h1 h2 ⊢
            tauto)]
          exact hp hc fun _ => hnp
      · dsimp only
        by_cases h2 : isspace c = true
        · rw [if_pos h2]; exact hs (by simp)
        · rw [if_neg h2, if_pos (by
            simp only [Bool.or_eq_true] at hcl h1 h2 ⊢
            tauto)]
          exact hp hc (by simp)
      · dsimp only
        by_cases h3 : (iscntrl c || ispunct c) = true
        · rw [if_pos h3]; exact hp hc (by simp)
        · rw [if_neg h3, if_neg h1, if_pos (by
            simp only [Bool.or_eq_true] at hcl h1 h3 ⊢
            tauto)]
          exact hs (by simp)
  · intro hc
    have hcl : (c == 95 || isalnum c || iscntrl c || ispunct c || isspace c) = false := by rw [hcl]; simpa using hc
    simp only [Bool.or_eq_false_iff] at hcl
    obtain ⟨⟨⟨⟨h1, h2⟩, h3⟩, h4⟩, h5⟩ := hcl
    rw [hex.eq_def]
    cases p <;> simp [h1, h2, h3, h4, h5]

theorem hex_alphabet {sep : Nat} : ∀ {first : Bool} {p : Phase} {s t : Str}, hex sep first p s = .ok t → (∀ c ∈ t, Plain c ∨ c = sep) ∧ (s ≠ [] → t ≠ [])
  | _, _, [], t, h => by rw [hex] at h; cases h; simp
  | first, p, c :: s, t, h => by
    by_cases hc : c < 128
    · obtain ⟨q, v, h1, h2, h3, -⟩ := hex_cons.1 hc
      rw [h3] at h
      obtain ⟨u, hu, rfl⟩ := map_ok h
      refine ⟨?_, fun _ e => h1 (List.append_eq_nil_iff.1 e).1⟩
      intro x hx
      rcases List.mem_append.1 hx with hx | hx
      · exact h2 x hx
      · exact (hex_alphabet hu).1 x hx
    · rw [hex_cons.2 hc] at h; cases h

theorem hex_ascii {sep : Nat} : ∀ {first : Bool} {p : Phase} {s : Str}, (∃ t, hex sep first p s = .ok t) ↔ ∀ c ∈ s, c < 128
  | _, _, [] => by simp [hex]
  | first, p, c :: s => by
    simp only [List.mem_cons, forall_eq_or_imp]
    by_cases hc : c < 128
    · obtain ⟨q, v, h1, h2, h3, -⟩ := hex_cons.1 hc
      rw [h3]
      rw [← hex_ascii (first := false) (p := q) (s := s) (sep := sep)]
      constructor
      · rintro ⟨t, ht⟩
        obtain ⟨u, hu, -⟩ := map_ok ht
        exact ⟨hc, u, hu⟩
      · rintro ⟨-, u, hu⟩
        exact ⟨_, by rw [hu]; rfl⟩
    · rw [hex_cons.2 hc]
      constructor
      · rintro ⟨t, ht⟩; cases ht
      · rintro ⟨h, -⟩; exact absurd h hc

theorem hex_clean {sep : Nat} : ∀ {first : Bool} {s : Str}, (∀ c ∈ s, Plain c) → hex sep first .word s = .ok s
  | _, [], _ => by rw [hex]
  | first, c :: s, h => by
    have hc := h c (by simp)
    obtain ⟨q, v, h1, h2, h3, h4⟩ := (hex_cons (sep := sep) (first := first) (p := .word) (c := c) (s := s)).1 (by unfold Plain Alnum at hc; omega)
    obtain ⟨rfl, rfl⟩ := h4 rfl hc
    rw [h3, hex_clean fun x hx => h x (by simp [hx])]
    rfl

theorem ubarLoop_barred : ∀ {s t : Str}, ubarLoop s = .ok t → t = Barred s
  | [], t, h => by cases h; rfl
  | c :: s, t, h => by
    rw [ubarLoop] at h
    rw [Barred]
    by_cases h1 : (c == 95 || isalnum c) = true
    · rw [if_pos h1] at h
      obtain ⟨u, hu, rfl⟩ := map_ok h
      rw [ubarLoop_barred hu]
      rcases word_iff.1 h1 with h1 | h1
      · unfold Alnum at h1; rw [if_pos h1]
      · subst h1; rfl
    · rw [if_neg h1] at h
      split at h
      · obtain ⟨u, hu, rfl⟩ := map_ok h
        rw [ubarLoop_barred hu, if_neg]
        exact fun h => h1 (word_iff.2 (.inl h))
      · cases h

theorem hexByte_piece {sep c : Nat} (h1 : (iscntrl c || ispunct c) = true) : HexPiece sep c (sep :: hexByte c) := by
  have h : ∀ c < 128, (iscntrl c || ispunct c) = true → ¬ Alnum c ∧ c ≠ 32 := by decide
  have hc : c < 128 := by
    simp only [iscntrl, ispunct, Bool.or_eq_true, Bool.and_eq_true, decide_eq_true_eq, beq_iff_eq] at h1
    omega
  refine .inr (.inr ⟨(h c hc h1).1, (h c hc h1).2, hc, ?_⟩)
  unfold hexByte
  split
  · exact ⟨_, rfl, rfl⟩
  · refine ⟨_, _, rfl, ?_, rfl⟩
    unfold hexDigit
    rw [if_pos (by omega)]

theorem hex_step {sep : Nat} {p : Phase} {c : Nat} {s t : Str} (h : hex sep false p (c :: s) = .ok t) :
    ∃ q v u, HexPiece sep c v ∧ hex sep false q s = .ok u ∧ t = v ++ u := by
  have hw : (c == 95 || isalnum c) = true → (hex sep false .word s).map (c :: ·) = .ok t →
      ∃ q v u, HexPiece sep c v ∧ hex sep false q s = .ok u ∧ t = v ++ u := by
    intro h1 h
    obtain ⟨u, hu, rfl⟩ := map_ok h
    exact ⟨_, [c], u, .inl ⟨word_iff.1 h1, rfl⟩, hu, rfl⟩
  have hs : isspace c = true → (hex sep false .space s).map (95 :: ·) = .ok t →
      ∃ q v u, HexPiece sep c v ∧ hex sep false q s = .ok u ∧ t = v ++ u := by
    intro h1 h
    obtain ⟨u, hu, rfl⟩ := map_ok h
    refine ⟨_, [95], u, .inr (.inl ⟨?_, rfl⟩), hu, rfl⟩
    simp only [isspace, Bool.or_eq_true, Bool.and_eq_true, decide_eq_true_eq, beq_iff_eq] at h1
    omega
  have hp : (iscntrl c || ispunct c) = true → (hex sep false .punct s).map ((if false = true then [] else [sep]) ++ hexByte c ++ ·) = .ok t →
      ∃ q v u, HexPiece sep c v ∧ hex sep false q s = .ok u ∧ t = v ++ u := by
    intro h1 h
    obtain ⟨u, hu, rfl⟩ := map_ok h
    exact ⟨_, sep :: hexByte c, u, hexByte_piece h1, hu, rfl⟩
  rw [hex.eq_def] at h
  cases p <;> dsimp only at h
  · by_cases h1 : (c == 95 || isalnum c) = true
    · rw [if_pos h1] at h; exact hw h1 h
    · rw [if_neg h1] at h
      by_cases h2 : isspace c = true
      · rw [if_pos h2] at h; exact hs h2 h
      · rw [if_neg h2] at h
        by_cases h3 : (iscntrl c || ispunct c) = true
        · rw [if_pos h3] at h; exact hp h3 h
        · rw [if_neg h3] at h; cases h
  · by_cases h2 : isspace c = true
    · rw [if_pos h2] at h; exact hs h2 h
    · rw [if_neg h2] at h
      by_cases h3 : (iscntrl c || ispunct c) = true
      · rw [if_pos h3] at h; exact hp h3 h
      · rw [if_neg h3] at h
        by_cases h1 : (c == 95 || isalnum c) = true
        · rw [if_pos h1] at h; exact hw h1 h
        · rw [if_neg h1] at h; cases h
  · by_cases h3 : (iscntrl c || ispunct c) = true
    · rw [if_pos h3] at h; exact hp h3 h
    · rw [if_neg h3] at h
      by_cases h1 : (c == 95 || isalnum c) = true
      · rw [if_pos h1] at h; exact hw h1 h
      · rw [if_neg h1] at h
        by_cases h2 : isspace c = true
        · rw [if_pos h2] at h; exact hs h2 h
        · rw [if_neg h2] at h; cases h

theorem hex_text {sep : Nat} : ∀ {p : Phase} {s t : Str}, hex sep false p s = .ok t → HexText sep s t
  | _, [], t, h => by rw [hex] at h; cases h; rfl
  | p, c :: s, t, h => by
    obtain ⟨q, v, u, h1, h2, h3⟩ := hex_step h
    exact ⟨v, u, h1, hex_text h2, h3⟩

theorem decimal_alnum (n : Nat) : ∀ c ∈ decimal n, Alnum c := by
  induction n using Nat.strongRecOn with
  | ind n ih =>
    rw [decimal]
    split
    · intro c hc; simp at hc; subst hc; unfold Alnum; omega
    · intro c hc
      rcases List.mem_append.1 hc with hc | hc
      · exact ih _ (by omega) c hc
      · simp at hc; subst hc; unfold Alnum; omega

theorem decimal_ne (n : Nat) : decimal n ≠ [] := by
  rw [decimal]; split <;> simp

theorem decimal_value (n : Nat) : valueOf (decimal n) = n := by
  induction n using Nat.strongRecOn with
  | ind n ih =>
    rw [decimal]
    split
    · simp [valueOf]
    · have := ih (n / 10) (by omega)
      unfold valueOf at this ⊢
      rw [List.foldl_append, this]
      simp
      omega

/-! ### the choice of the identifier -/

theorem attempt_free {ids : List Str} {max hash : Nat} {s : Str} : ∀ {fs : List (Str → Out Str)} {t : Str},
    attempt ids max hash s fs = .ok t → t ≠ [] → ∃ f ∈ fs, ∃ u, f s = .ok u ∧ t = shorten max hash u ∧ t ∉ ids
  | [], t, h, ht => by cases h; exact absurd rfl ht
  | f :: fs, t, h, ht => by
    rw [attempt] at h
    split at h
    · cases h
    · rename_i u hu
      split at h
      · obtain ⟨g, hg, v, h1, h2, h3⟩ := attempt_free h ht
        exact ⟨g, by simp [hg], v, h1, h2, h3⟩
      · cases h; exact ⟨f, by simp, u, hu, rfl, by assumption⟩

theorem attempt_none {ids : List Str} {max hash : Nat} {s : Str} : ∀ {fs : List (Str → Out Str)},
    (∀ f ∈ fs, ∀ u, f s = .ok u → u ≠ []) → attempt ids max hash s fs = .ok [] → ∀ f ∈ fs, ∃ u, f s = .ok u ∧ shorten max hash u ∈ ids
  | [], _, _ => by simp
  | f :: fs, hn, h => by
    rw [attempt] at h
    split at h
    · cases h
    · rename_i u hu
      split at h
      · intro g hg
        rcases List.mem_cons.1 hg with rfl | hg
        · exact ⟨u, hu, by assumption⟩
        · exact attempt_none (fun g hg => hn g (by simp [hg])) h g hg
      · have : shorten max hash u = [] := by injection h
        exact absurd this (shorten_ne (hn f (by simp) u hu))

theorem attempt_ok {ids : List Str} {max hash : Nat} {s : Str} : ∀ {fs : List (Str → Out Str)}, (∀ f ∈ fs, ∃ u, f s = .ok u) →
    ∃ t, attempt ids max hash s fs = .ok t
  | [], _ => ⟨_, rfl⟩
  | f :: fs, h => by
    obtain ⟨u, hu⟩ := h f (by simp)
    rw [attempt, hu]
    simp only
    split
    · exact attempt_ok fun g hg => h g (by simp [hg])
    · exact ⟨_, rfl⟩

theorem tries_ne {lang : Lang} {l : Str} (hl : l ≠ []) : ∀ f ∈ tries lang, ∀ u, f l = .ok u → u ≠ [] := by
  have ha : ∀ b u, Except.ok (ε := Fault) (alnum b l) = .ok u → u ≠ [] := by intro b u h; cases h; exact alnum_ne hl
  have hu : ∀ b u, ubar b l = .ok u → u ≠ [] := fun b u h => (ubar_plain h).2 hl
  have hh : ∀ sep b u, hex sep b .word l = .ok u → u ≠ [] := fun sep b u h => (hex_alphabet h).2 hl
  intro f hf
  cases lang <;> simp [tries] at hf
  case least => subst hf; exact ha _
  case amqp =>
    subst hf
    intro u h
    have : amqp l = u := by injection h
    subst this
    simpa [amqp] using hl
  case url => subst hf; exact hh _ _
  case file => subst hf; exact hh _ _
  all_goals
    rcases hf with rfl | rfl | rfl
    · exact hu _
    · exact ha _
    · exact hh _ _

theorem tries_alphabet {lang : Lang} {l : Str} : ∀ f ∈ tries lang, ∀ u, f l = .ok u → ∀ c ∈ u, Alphabet lang c := by
  have ha : ∀ b u, Except.ok (ε := Fault) (alnum b l) = .ok u → ∀ c ∈ u, Plain c := by intro b u h; cases h; exact alnum_plain
  have hu : ∀ b u, ubar b l = .ok u → ∀ c ∈ u, Plain c := fun b u h => (ubar_plain h).1
  have hh : ∀ b u, hex 95 b .word l = .ok u → ∀ c ∈ u, Plain c := fun b u h c hc => ((hex_alphabet h).1 c hc).elim id .inr
  intro f hf
  cases lang <;> simp [tries] at hf
  case least => subst hf; exact ha _
  case amqp =>
    subst hf
    intro u h
    have : amqp l = u := by injection h
    subst this
    intro c hc
    simp only [amqp, List.mem_map] at hc
    obtain ⟨a, -, rfl⟩ := hc
    show _ ≠ 46
    split <;> omega
  case url => subst hf; exact fun u h => (hex_alphabet h).1
  case file => subst hf; exact hh _
  all_goals
    rcases hf with rfl | rfl | rfl
    · exact hu _
    · exact ha _
    · exact hh _

theorem tries_ok {lang : Lang} {l : Str} (h : Ascii lang → ∀ c ∈ l, c < 128) : ∀ f ∈ tries lang, ∃ u, f l = .ok u := by
  intro f hf
  cases lang <;> simp [tries] at hf
  case least => subst hf; exact ⟨_, rfl⟩
  case amqp => subst hf; exact ⟨_, rfl⟩
  case url => subst hf; exact hex_ascii.2 (h trivial)
  case file => subst hf; exact hex_ascii.2 (h trivial)
  all_goals
    rcases hf with rfl | rfl | rfl
    · exact ubar_ascii.2 (h trivial)
    · exact ⟨_, rfl⟩
    · exact hex_ascii.2 (h trivial)

/-- what `toId` gives: the first free one of the translations, or the last resort -/
theorem toId_cases {H : Str → Nat} {s : LSet} {l t : Str} (h : toId H s l = .ok t) :
    (t ≠ [] ∧ ∃ f ∈ tries s.lang, ∃ u, f l = .ok u ∧ t = shorten s.max (H l) u ∧ t ∉ ids s) ∨
    (attempt (ids s) s.max (H l) l (tries s.lang) = .ok [] ∧
      ((t = alnum true l ++ decimal (H l) ∧ t ∉ ids s) ∨ (t = [] ∧ alnum true l ++ decimal (H l) ∈ ids s))) := by
  rw [toId] at h
  split at h
  · cases h
  · rename_i u hu
    split at h
    · rename_i h0
      subst h0
      right
      refine ⟨hu, ?_⟩
      dsimp only at h
      split at h
      · cases h; exact .inr ⟨rfl, by assumption⟩
      · cases h; exact .inl ⟨rfl, by assumption⟩
    · rename_i h0
      cases h
      exact .inl ⟨h0, attempt_free hu h0⟩

end Verif.LabelSet
