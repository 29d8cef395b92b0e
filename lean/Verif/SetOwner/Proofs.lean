import Verif.SetOwner.Spec

namespace Verif.SetOwner

theorem digit_num {base d : Nat} (hb : base ≤ 10) (hd : d < base) : digit base (48 + d) = some d := by
  unfold digit isDigit
  rw [if_pos (by simp; omega)]
  simp [hd]

theorem digits_numeral (base : Nat) (h2 : 2 ≤ base) (hb : base ≤ 10) (n : Nat) : ∀ (acc : Nat) (r : Str),
    digits base acc (numeral base n ++ r) = digits base (acc * base ^ (numeral base n).length + n) r := by
  induction n using Nat.strongRecOn with
  | ind n ih =>
    intro acc r
    unfold numeral
    split
    · rename_i h
      have hn : n < base := h.resolve_right (by omega)
      simp only [List.cons_append, List.nil_append, digits, digit_num hb hn, List.length_singleton, Nat.pow_one]
    · rename_i h
      have hlt : n / base < n := Nat.div_lt_self (by omega) (by omega)
      rw [List.append_assoc, ih _ hlt]
      simp only [List.cons_append, List.nil_append, digits, digit_num hb (Nat.mod_lt n (by omega)), List.length_append,
        List.length_singleton, Nat.pow_succ]
      congr 1
      have := Nat.div_add_mod n base
      rw [Nat.add_mul, Nat.mul_assoc, Nat.mul_comm (n / base)]
      omega

theorem digits_zeros (base : Nat) (h2 : 2 ≤ base) (hb : base ≤ 10) : ∀ (z : Nat) (r : Str), digits base 0 (List.replicate z 48 ++ r) = digits base 0 r
  | 0, r => rfl
  | z + 1, r => by
    have : digit base 48 = some 0 := digit_num (d := 0) hb (by omega)
    rw [List.replicate_succ, List.cons_append]
    simp only [digits, this]
    rw [Nat.zero_mul, Nat.zero_add]
    exact digits_zeros base h2 hb z r

/-- a numeral begins with a digit; with a zero only if it is zero -/
theorem numeral_head (base : Nat) (h2 : 2 ≤ base) (hb : base ≤ 10) (n : Nat) :
    ∃ d s, numeral base n = (48 + d) :: s ∧ d < base ∧ (0 < n → 0 < d) ∧ (n = 0 → s = []) := by
  induction n using Nat.strongRecOn with
  | ind n ih =>
    unfold numeral
    split
    · rename_i h
      exact ⟨n, [], rfl, h.resolve_right (by omega), id, fun _ => rfl⟩
    · rename_i h
      obtain ⟨d, s, h1, h3, h4, _⟩ := ih _ (Nat.div_lt_self (by omega) (by omega) : n / base < n)
      refine ⟨d, s ++ [48 + n % base], by rw [h1]; rfl, h3, fun _ => h4 (Nat.div_pos (by omega) (by omega)), fun h0 => ?_⟩
      omega

/-- after a digit there is neither space nor sign -/
theorem strtol_digit (base d : Nat) (s : Str) (hd : d < 10) : strtol base ((48 + d) :: s) =
    (match (prefixed base ((48 + d) :: s)).2 with
    | [] => ⟨0, (48 + d) :: s, true, false⟩
    | c :: _ =>
      if (digit (prefixed base ((48 + d) :: s)).1 c).isNone then ⟨0, (48 + d) :: s, true, false⟩
      else
        let v : Int := (digits (prefixed base ((48 + d) :: s)).1 0 (prefixed base ((48 + d) :: s)).2).1
        let rest := (digits (prefixed base ((48 + d) :: s)).1 0 (prefixed base ((48 + d) :: s)).2).2
        if v < -2 ^ 63 then ⟨-2 ^ 63, rest, false, true⟩
        else if 2 ^ 63 ≤ v then ⟨2 ^ 63 - 1, rest, false, true⟩
        else ⟨v, rest, false, false⟩) := by
  have hs : isSpace (48 + d) = false := by unfold isSpace; simp; omega
  unfold strtol
  simp only [List.dropWhile_cons, hs, Bool.false_eq_true, if_false, List.head?_cons, Option.some.injEq, List.tail_cons]
  rw [if_neg (show ¬ (48 + d = 45 ∨ 48 + d = 43) by omega)]
  simp only [show ¬ (48 + d = 45) by omega, if_false]
  rfl

/-- the number that was read, in the range of `long` -/
def ranged (v : Nat) (rest : Str) : Num := if 2 ^ 63 ≤ v then ⟨2 ^ 63 - 1, rest, false, true⟩ else ⟨v, rest, false, false⟩

/-- what comes after a number -/
def Stops (base : Nat) (r : Str) : Prop := ∀ c s, r = c :: s → digit base c = none

theorem digits_stop {base : Nat} {r : Str} (h : Stops base r) (acc : Nat) : digits base acc r = (acc, r) := by
  cases r with
  | nil => rfl
  | cons c s => simp only [digits, h c s rfl]

theorem strtol_based (base : Nat) (h2 : 2 ≤ base) (hb : base ≤ 10) (z n : Nat) (r : Str) (hr : Stops base r) :
    strtol base (List.replicate z 48 ++ numeral base n ++ r) = ranged n r := by
  have key : ∃ d s, List.replicate z 48 ++ numeral base n ++ r = (48 + d) :: s ∧ d < base := by
    cases z with
    | zero =>
      obtain ⟨d, s, h1, h3, _⟩ := numeral_head base h2 hb n
      exact ⟨d, s ++ r, by rw [h1]; rfl, h3⟩
    | succ z => exact ⟨0, List.replicate z 48 ++ numeral base n ++ r, rfl, by omega⟩
  have hv : digits base 0 (List.replicate z 48 ++ numeral base n ++ r) = (n, r) := by
    rw [List.append_assoc, digits_zeros base h2 hb, digits_numeral base h2 hb, digits_stop hr]
    simp
  obtain ⟨d, s, h1, h3⟩ := key
  rw [h1] at hv ⊢
  rw [strtol_digit _ _ _ (by omega)]
  have hp : prefixed base ((48 + d) :: s) = (base, (48 + d) :: s) := by unfold prefixed; rw [if_neg (by omega)]
  rw [hp]
  simp only [digit_num hb h3, Option.isNone_some, Bool.false_eq_true, if_false, hv]
  unfold ranged
  rw [if_neg (by omega)]
  split <;> split <;> first | rfl | omega

/-- a decimal number where the base is not given -/
theorem strtol_dec (n : Nat) (r : Str) (hn : 0 < n ∨ r = []) (hr : Stops 10 r) : strtol 0 (dec n ++ r) = ranged n r := by
  obtain ⟨d, s, h1, h3, h4, h5⟩ := numeral_head 10 (by omega) (by omega) n
  have hv := digits_numeral 10 (by omega) (by omega) n 0 r
  rw [digits_stop hr] at hv
  simp only [Nat.zero_mul, Nat.zero_add] at hv
  by_cases h0 : n = 0
  · subst h0
    have := hn.resolve_left (by omega)
    subst this
    decide +kernel
  · have hd := h4 (by omega)
    rw [show dec n = numeral 10 n from rfl, h1, List.cons_append] at *
    rw [strtol_digit _ _ _ (by omega)]
    have hp : prefixed 0 ((48 + d) :: (s ++ r)) = (10, (48 + d) :: (s ++ r)) := by
      unfold prefixed
      rw [if_pos rfl]
      split
      · rename_i h; injection h; omega
      · rename_i h; injection h; omega
      · rfl
    rw [hp]
    simp only [digit_num (by omega) h3, Option.isNone_some, Bool.false_eq_true, if_false, hv]
    unfold ranged
    rw [if_neg (by omega)]
    split <;> split <;> first | rfl | omega

theorem u32_small {n : Nat} (h : n < 2 ^ 32) : u32 (n : Int) = n := by
  unfold u32
  rw [Int.emod_eq_of_lt (by omega) (by omega)]
  rfl

theorem stops_nil (base : Nat) : Stops base [] := fun _ _ h => nomatch h

theorem ranged_small {v : Nat} (h : v < 2 ^ 63) (r : Str) : ranged v r = ⟨v, r, false, false⟩ := if_neg (by omega)

theorem alpha_digit {d : Nat} (h : d < 10) : isAlpha (48 + d) = false := by unfold isAlpha; simp; omega

theorem alpha_iff (c : Nat) : isAlpha c = true ↔ Letter c := by unfold isAlpha Letter; simp

theorem parseId_dec (db : Db) (n : Nat) (h : n < 2 ^ 32) : parseId db (dec n) = some n := by
  have hs := strtol_dec n [] (.inr rfl) (stops_nil 10)
  rw [List.append_nil, ranged_small (by omega)] at hs
  obtain ⟨d, s, h1, h3, _⟩ := numeral_head 10 (by omega) (by omega) n
  have ha : isAlpha ((dec n).headD 0) = false := by rw [show dec n = numeral 10 n from rfl, h1]; exact alpha_digit h3
  unfold parseId
  rw [ha, hs]
  simp [u32_small h]

theorem parseId_name (db : Db) (c : Nat) (s : Str) (h : Letter c) : parseId db (c :: s) = db (c :: s) := by
  unfold parseId
  rw [show isAlpha ((c :: s).headD 0) = true from (alpha_iff c).2 h]
  rfl

theorem parsePerm_oct (z p : Nat) : parsePerm (List.replicate z 48 ++ oct p) = if 0 < p ∧ p < 512 then some p else none := by
  have hs := strtol_based 8 (by omega) (by omega) z p [] (stops_nil 8)
  rw [List.append_nil] at hs
  unfold parsePerm
  rw [hs]
  unfold ranged
  by_cases h : 2 ^ 63 ≤ p
  · rw [if_pos h]
    simp only [true_or, if_true]
    rw [if_neg (by omega)]
  · rw [if_neg h]
    by_cases h5 : 0 < p ∧ p < 512
    · rw [if_pos h5]
      have : (p : Int) % 512 = p := Int.emod_eq_of_lt (by omega) (by omega)
      simp only [this]
      rw [if_neg (by simp; omega)]
      rfl
    · rw [if_neg h5]
      simp only
      rw [if_pos]
      by_cases h0 : p = 0
      · subst h0; exact .inr (.inr rfl)
      · exact .inr (.inl (by have := Int.emod_lt_of_pos (p : Int) (show (0 : Int) < 512 by omega); omega))

theorem requestPerm_oct (z p : Nat) : requestPerm (List.replicate z 48 ++ oct p) = if p < 2 ^ 63 ∧ p % 2 ^ 32 < 512 then some (p % 2 ^ 32) else none := by
  have hs := strtol_based 8 (by omega) (by omega) z p [] (stops_nil 8)
  rw [List.append_nil] at hs
  unfold requestPerm
  rw [hs]
  unfold ranged
  by_cases h : 2 ^ 63 ≤ p
  · rw [if_pos h]
    simp only [true_or, if_true]
    rw [if_neg (by omega)]
  · rw [if_neg h]
    have hu : u32 (p : Int) = p % 2 ^ 32 := by
      unfold u32
      rw [show ((p : Int) % 2 ^ 32) = ((p % 2 ^ 32 : Nat) : Int) by simp]
      rfl
    simp only [hu]
    rw [if_neg (by simp)]
    split <;> split <;> first | rfl | omega

theorem requestId_dec (db : Db) (n : Nat) (h : n < 2 ^ 32) (hd : db (dec n) = none) : requestId db (dec n) = some n := by
  have hs := strtol_dec n [] (.inr rfl) (stops_nil 10)
  rw [List.append_nil, ranged_small (by omega)] at hs
  unfold requestId
  rw [hd, hs]
  simp [u32_small h]

/-- a text that begins with a letter is no number -/
theorem strtol_letter (base : Nat) (hb : base ≤ 10) (c : Nat) (s : Str) (h : Letter c) : strtol base (c :: s) = ⟨0, c :: s, true, false⟩ := by
  have h' : (65 ≤ c ∧ c ≤ 90) ∨ (97 ≤ c ∧ c ≤ 122) := h
  have hs : isSpace c = false := by unfold isSpace; simp; omega
  unfold strtol
  simp only [List.dropWhile_cons, hs, Bool.false_eq_true, if_false, List.head?_cons, Option.some.injEq, List.tail_cons]
  rw [if_neg (show ¬ (c = 45 ∨ c = 43) by omega)]
  have hp : ∃ b, b ≤ 10 ∧ prefixed base (c :: s) = (b, c :: s) := by
    unfold prefixed
    split
    · split
      · rename_i h; injection h; omega
      · exact ⟨8, by omega, rfl⟩
      · exact ⟨10, by omega, rfl⟩
    · exact ⟨base, hb, rfl⟩
  obtain ⟨b, hb', hp⟩ := hp
  rw [hp]
  have hdg : digit b c = none := by
    unfold digit isDigit
    rw [if_neg (by simp; omega)]
    rcases h' with q | q
    · rw [if_neg (by omega), if_pos q]; simp; omega
    · rw [if_pos q]; simp; omega
  simp [hdg]

end Verif.SetOwner
