/-!
# Bytes and big-endian words

Bytes are natural numbers below 256.
-/

namespace Verif

/-- `n` as `k` bytes, most significant first -/
def beBytes : Nat → Nat → List Nat
  | 0, _ => []
  | k + 1, n => beBytes k (n / 256) ++ [n % 256]

/-- the number with these bytes, most significant first -/
def beVal (l : List Nat) : Nat := l.foldl (fun a b => a * 256 + b) 0

/-- `n` as `k` bytes, least significant first -/
def leBytes : Nat → Nat → List Nat
  | 0, _ => []
  | k + 1, n => n % 256 :: leBytes k (n / 256)

theorem beBytes_length : ∀ k n, (beBytes k n).length = k := by
  intro k
  induction k with
  | zero => intro n; rfl
  | succ k ih => intro n; simp [beBytes, ih]

theorem leBytes_length : ∀ k n, (leBytes k n).length = k := by
  intro k
  induction k with
  | zero => intro n; rfl
  | succ k ih => intro n; simp [leBytes, ih]

theorem beVal_append (l : List Nat) (b : Nat) : beVal (l ++ [b]) = beVal l * 256 + b := by
  simp [beVal]

/-- reading back a big-endian word -/
theorem beVal_beBytes : ∀ k n, n < 256 ^ k → beVal (beBytes k n) = n := by
  intro k
  induction k with
  | zero => intro n h; simp at h; subst h; rfl
  | succ k ih =>
    intro n h
    rw [beBytes, beVal_append, ih]
    · omega
    · rw [Nat.pow_succ] at h
      exact Nat.div_lt_of_lt_mul (by omega)

theorem beBytes_lt : ∀ k n, ∀ b ∈ beBytes k n, b < 256 := by
  intro k
  induction k with
  | zero => intro n b h; cases h
  | succ k ih =>
    intro n b h
    rw [beBytes, List.mem_append] at h
    rcases h with h | h
    · exact ih _ _ h
    · simp at h; omega

theorem leBytes_inj : ∀ k a b, a < 256 ^ k → b < 256 ^ k → leBytes k a = leBytes k b → a = b := by
  intro k
  induction k with
  | zero => intro a b ha hb _; simp at ha hb; omega
  | succ k ih =>
    intro a b ha hb h
    rw [Nat.pow_succ] at ha hb
    simp only [leBytes] at h
    injection h with h1 h2
    have := ih (a / 256) (b / 256) (Nat.div_lt_of_lt_mul (by omega)) (Nat.div_lt_of_lt_mul (by omega)) h2
    omega

theorem leBytes_split : ∀ j k n, leBytes (j + k) n = leBytes j n ++ leBytes k (n / 256 ^ j) := by
  intro j
  induction j with
  | zero => intro k n; simp [leBytes]
  | succ j ih =>
    intro k n
    rw [show j + 1 + k = (j + k) + 1 from by omega]
    simp only [leBytes, List.cons_append]
    rw [ih, Nat.div_div_eq_div_mul, Nat.pow_succ, Nat.mul_comm 256]

theorem leBytes_mod : ∀ k n, leBytes k (n % 256 ^ k) = leBytes k n := by
  intro k
  induction k with
  | zero => intro n; rfl
  | succ k ih =>
    intro n
    have h1 : n % 256 ^ (k + 1) % 256 = n % 256 := by
      rw [Nat.pow_succ]; exact Nat.mod_mod_of_dvd _ (Nat.dvd_mul_left _ _)
    have h2 : n % 256 ^ (k + 1) / 256 = n / 256 % 256 ^ k := by
      rw [Nat.pow_succ, Nat.mul_comm]; exact Nat.mod_mul_right_div_self _ _ _
    simp only [leBytes]
    rw [h1, h2, ih]

end Verif
