import Verif.MemSize.Model

/-!
# Properties of size and time strings (C37)
-/

namespace Verif.MemSize

open Verif.NameTab (codes)

/-! ## specification -/

/-- the number written by a list of decimal digits -/
def decVal (ds : List Nat) : Nat := ds.foldl (fun a d => a * 10 + (d - 48)) 0

/-- all digits -/
def IsDigits (ds : List Nat) : Prop := ds ≠ [] ∧ ∀ d ∈ ds, 48 ≤ d ∧ d ≤ 57

/-- all white space -/
def IsWs (s : List Nat) : Prop := ∀ c ∈ s, isspace c = true

/-- the unit letters and the size they stand for -/
inductive SizeUnit : Nat → Nat → Prop
  | b : SizeUnit 98 1
  | B : SizeUnit 66 1
  | k : SizeUnit 107 (2 ^ 10)
  | K : SizeUnit 75 (2 ^ 10)
  | m : SizeUnit 109 (2 ^ 20)
  | M : SizeUnit 77 (2 ^ 20)
  | g : SizeUnit 103 (2 ^ 30)
  | G : SizeUnit 71 (2 ^ 30)
  | t : SizeUnit 116 (2 ^ 40)
  | T : SizeUnit 84 (2 ^ 40)

/-- the documented time units (`util.h:197-209`), and the units written out -/
inductive TimeUnit : List Nat → Int → Prop
  | none : TimeUnit [] 1
  | us : TimeUnit (codes "us") 1
  | ms : TimeUnit (codes "ms") 1000
  | s : TimeUnit (codes "s") 1000000
  | m : TimeUnit (codes "m") 60000000
  | h : TimeUnit (codes "h") 3600000000
  | d : TimeUnit (codes "d") 86400000000
  | microseconds : TimeUnit (codes "microseconds") 1
  | milliseconds : TimeUnit (codes "milliseconds") 1000
  | seconds : TimeUnit (codes "seconds") 1000000
  | minutes : TimeUnit (codes "minutes") 60000000
  | hours : TimeUnit (codes "hours") 3600000000
  | days : TimeUnit (codes "days") 86400000000

/-! ## proofs -/

theorem skipWs_ws (w : List Nat) (hw : IsWs w) (c : Nat) (r : List Nat) (hc : isspace c = false) :
    skipWs (w ++ c :: r) = c :: r := by
  induction w with
  | nil => rw [List.nil_append, skipWs, hc]; rfl
  | cons x w ih =>
    rw [List.cons_append, skipWs, hw x (List.mem_cons_self ..)]
    exact ih (fun y hy => hw y (List.mem_cons_of_mem _ hy))

theorem digits_app (ds : List Nat) (h : ∀ d ∈ ds, 48 ≤ d ∧ d ≤ 57) (r : List Nat)
    (hr : startsDigit r = false) : ∀ acc,
    digits acc (ds ++ r) = (ds.foldl (fun a d => a * 10 + (d - 48)) acc, r) := by
  induction ds with
  | nil =>
    intro acc
    rw [List.nil_append]
    cases r with
    | nil => rfl
    | cons c r => rw [digits, show isdigit c = false from hr]; rfl
  | cons d ds ih =>
    intro acc
    have hd := h d (List.mem_cons_self ..)
    have : isdigit d = true := by simp [isdigit, hd.1, hd.2]
    rw [List.cons_append, digits, this, if_pos rfl, ih (fun x hx => h x (List.mem_cons_of_mem _ hx))]
    rfl

theorem digit_not_space {d : Nat} (h : 48 ≤ d ∧ d ≤ 57) : isspace d = false := by
  have : ∀ d < 58, 48 ≤ d → isspace d = false := by decide
  exact this d (by omega) h.1

theorem sign_digit {d : Nat} (h : 48 ≤ d ∧ d ≤ 57) (r : List Nat) : sign (d :: r) = (false, d :: r) := by
  unfold sign
  split
  · rename_i heq; injection heq with h1 _; omega
  · rename_i heq; injection heq with h1 _; omega
  · rfl

theorem prelude_digits (w ds r : List Nat) (hw : IsWs w) (hd : IsDigits ds) :
    sign (skipWs (w ++ (ds ++ r))) = (false, ds ++ r) ∧ startsDigit (ds ++ r) = true := by
  obtain ⟨hne, h⟩ := hd
  cases ds with
  | nil => exact absurd rfl hne
  | cons d ds =>
    have hd := h d (List.mem_cons_self ..)
    rw [List.cons_append, skipWs_ws w hw d _ (digit_not_space hd), sign_digit hd]
    refine ⟨rfl, ?_⟩
    show isdigit d = true
    simp [isdigit, hd.1, hd.2]

theorem ws_not_digit {c : Nat} (h : isspace c = true) : isdigit c = false := by
  by_cases hc : c < 58
  · have : ∀ c < 58, isspace c = true → isdigit c = false := by decide
    exact this c hc h
  · simp [isdigit]; omega

theorem starts_ws (w : List Nat) (hw : IsWs w) (c : Nat) (r : List Nat) (hc : isdigit c = false) :
    startsDigit (w ++ c :: r) = false := by
  cases w with
  | nil => exact hc
  | cons x w => exact ws_not_digit (hw x (List.mem_cons_self ..))

/-- the value computed for any number (below `2 ^ 64`), blanks, a letter and anything after it -/
theorem mem_size_value (w ds w' : List Nat) (u : Nat) (rest : List Nat) (hw : IsWs w)
    (hd : IsDigits ds) (hw' : IsWs w') (hu : isspace u = false) (hu' : isdigit u = false)
    (hv : decVal ds < 2 ^ 64) :
    memSize (w ++ (ds ++ (w' ++ u :: rest))) = some (applyUnit (decVal ds) u) := by
  have e : w ++ (ds ++ (w' ++ u :: rest)) ++ [66] = w ++ (ds ++ (w' ++ u :: (rest ++ [66]))) := by simp
  have hp := prelude_digits w ds (w' ++ u :: (rest ++ [66])) hw hd
  have hdg := digits_app ds hd.2 (w' ++ u :: (rest ++ [66])) (starts_ws w' hw' u _ hu') 0
  rw [memSize, e, scanLu]
  simp only [hp.1, hp.2, if_true, hdg]
  rw [if_neg (by simpa [decVal] using hv)]
  simp only [Bool.false_eq_true, if_false]
  rw [skipWs_ws w' hw' u _ hu]
  rfl

/-- **C37, sizes.**  A decimal number followed by a unit letter (blanks allowed before and between,
anything after) is that number of units, for every unit but `t`/`T`, whenever the result fits in
64 bits. -/
theorem mem_size_partial (w ds w' rest : List Nat) (u f : Nat) (hw : IsWs w) (hd : IsDigits ds)
    (hw' : IsWs w') (hu : SizeUnit u f) (hT : u ≠ 116 ∧ u ≠ 84) (hv : decVal ds * f < 2 ^ 64) :
    memSize (w ++ (ds ++ (w' ++ u :: rest))) = some (decVal ds * f) := by
  have hf : 1 ≤ f := by cases hu <;> decide
  have hv' : decVal ds < 2 ^ 64 := Nat.lt_of_le_of_lt (Nat.le_mul_of_pos_right _ hf) hv
  have h1 : isspace u = false := by cases hu <;> decide
  have h2 : isdigit u = false := by cases hu <;> decide
  rw [mem_size_value w ds w' u rest hw hd hw' h1 h2 hv']
  congr 1
  generalize decVal ds = n at hv
  cases hu
  · simp [applyUnit]
  · simp [applyUnit]
  · simp [applyUnit]; omega
  · simp [applyUnit]; omega
  · simp [applyUnit]; omega
  · simp [applyUnit]; omega
  · simp [applyUnit]; omega
  · simp [applyUnit]; omega
  · exact absurd rfl hT.1
  · exact absurd rfl hT.2

/-- a number without unit is a number of bytes -/
theorem mem_size_plain (w ds w' : List Nat) (hw : IsWs w) (hd : IsDigits ds) (hw' : IsWs w')
    (hv : decVal ds < 2 ^ 64) : memSize (w ++ (ds ++ w')) = some (decVal ds) := by
  have hp := prelude_digits w ds (w' ++ [66]) hw hd
  have hdg := digits_app ds hd.2 (w' ++ [66]) (starts_ws w' hw' 66 [] (by decide)) 0
  rw [memSize, show w ++ (ds ++ w') ++ [66] = w ++ (ds ++ (w' ++ [66])) by simp, scanLu]
  simp only [hp.1, hp.2, if_true, hdg]
  rw [if_neg (by simpa [decVal] using hv)]
  simp only [Bool.false_eq_true, if_false]
  rw [skipWs_ws w' hw' 66 [] (by decide)]
  rfl

/-- **C37, defect.**  Terabytes are counted as gigabytes: the result is 1024 times too small. -/
theorem mem_size_tera_defect (ds : List Nat) (hd : IsDigits ds) (hv : decVal ds * 2 ^ 30 < 2 ^ 64) :
    memSize (ds ++ [84]) = some (decVal ds * 2 ^ 30) := by
  have hv' : decVal ds < 2 ^ 64 := by omega
  have := mem_size_value [] ds [] 84 [] (fun _ h => by cases h) hd (fun _ h => by cases h)
    (by decide) (by decide) hv'
  rw [List.nil_append, List.nil_append] at this
  rw [this]
  congr 1
  generalize decVal ds = n at hv
  simp [applyUnit]; omega

/-- **C37, defect.**  A string without a number is not refused: the result is computed from
uninitialised variables. -/
theorem mem_size_garbage_defect : memSize [] = none ∧ memSize (codes "lots") = none ∧
    memSize (codes "-") = none := by decide

/-- an unknown unit gives 0 -/
theorem mem_size_unknown : memSize (codes "12x") = some 0 := by decide

theorem skipBlanks_app (b : Nat) (u : List Nat) (hu : ∀ r, u ≠ 32 :: r) :
    skipBlanks (List.replicate b 32 ++ u) = u := by
  induction b with
  | zero =>
    show skipBlanks u = u
    unfold skipBlanks
    split
    · rename_i r; exact absurd rfl (hu r)
    · rfl
  | succ b ih => rw [List.replicate_succ, List.cons_append, skipBlanks]; exact ih

/-- **C37, times.**  A decimal number, blanks and a documented unit (or none) is that number of
units in microseconds, whenever the result is below `2 ^ 53`. -/
theorem time_str_units_partial (w ds : List Nat) (b : Nat) (u : List Nat) (f : Int) (hw : IsWs w)
    (hd : IsDigits ds) (hu : TimeUnit u f) (hv : (decVal ds * f).natAbs < 2 ^ 53) :
    timeStr2us (w ++ (ds ++ (List.replicate b 32 ++ u))) = .ok (decVal ds * f) := by
  have hp := prelude_digits w ds (List.replicate b 32 ++ u) hw hd
  have hs : startsDigit (List.replicate b 32 ++ u) = false := by
    cases b with
    | zero => cases hu <;> rfl
    | succ b => rfl
  have hdg := digits_app ds hd.2 _ hs 0
  have hne : ∀ r, u ≠ 32 :: r := by
    intro r h
    cases hu <;> cases h
  have hf : factor u = some f := by cases hu <;> rfl
  rw [timeStr2us, strtodInt]
  simp only [hp.1, hp.2, if_true, hdg, Bool.false_eq_true, if_false]
  rw [skipBlanks_app b u hne, hf]
  simp only
  exact if_pos hv

/-- **C37, times, negative.**  Likewise with a minus sign. -/
theorem time_str_negative (w ds : List Nat) (b : Nat) (u : List Nat) (f : Int) (hw : IsWs w)
    (hd : IsDigits ds) (hu : TimeUnit u f) (hv : (decVal ds * f).natAbs < 2 ^ 53) :
    timeStr2us (w ++ 45 :: (ds ++ (List.replicate b 32 ++ u))) = .ok (-(decVal ds * f)) := by
  have hp : startsDigit (ds ++ (List.replicate b 32 ++ u)) = true :=
    (prelude_digits [] ds (List.replicate b 32 ++ u) (fun _ h => by cases h) hd).2
  have hs : startsDigit (List.replicate b 32 ++ u) = false := by
    cases b with
    | zero => cases hu <;> rfl
    | succ b => rfl
  have hdg := digits_app ds hd.2 _ hs 0
  have hne : ∀ r, u ≠ 32 :: r := by
    intro r h
    cases hu <;> cases h
  have hf : factor u = some f := by cases hu <;> rfl
  rw [timeStr2us, strtodInt, skipWs_ws w hw 45 _ (by decide)]
  simp only [sign, hp, if_true, hdg]
  rw [skipBlanks_app b u hne, hf]
  simp only
  rw [show -((List.foldl (fun a d => a * 10 + (d - 48)) 0 ds : Nat) : Int) * f = -(decVal ds * f) from
    Int.neg_mul _ _, if_pos (by rw [Int.natAbs_neg]; exact hv)]

/-- **C37, defect.**  Only the exact word "ms" means milliseconds; "msec" and "msecs" are taken for
minutes, 60000 times too long. -/
theorem time_str_msec_defect : timeStr2us (codes "10 msec") = .ok 600000000 ∧
    timeStr2us (codes "10 ms") = .ok 10000 := by decide

/-- **C37, defect.**  Any word starting with a unit letter is accepted as that unit. -/
theorem time_str_unit_junk_defect (r : List Nat) :
    factor (115 :: r) = some 1000000 ∧ factor (104 :: r) = some 3600000000 ∧
    factor (100 :: r) = some 86400000000 := by
  refine ⟨?_, ?_, ?_⟩ <;> simp [factor, codes, List.isPrefixOf]

example : memSize (codes "512 k") = some (512 * 1024) := by decide
example : timeStr2us (codes "2 m") = .ok 120000000 := by decide
example : IsDigits (codes "512") ∧ SizeUnit 107 (2 ^ 10) :=
  ⟨⟨by decide, by decide⟩, .k⟩

end Verif.MemSize
