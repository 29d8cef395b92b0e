import Verif.Digest.Model

/-!
# Properties of digest strings (C21)
-/

namespace Verif.Digest

/-! ## specification -/

/-- a digest: 32 bytes -/
def IsDigest (d : List Nat) : Prop := d.length = 32 ∧ ∀ b ∈ d, b < 256

/-- the value of a hexadecimal digit -/
def digitVal (c : Nat) : Option Nat :=
  if 48 ≤ c ∧ c ≤ 57 then some (c - 48)
  else if 65 ≤ c ∧ c ≤ 70 then some (c - 65 + 10)
  else if 97 ≤ c ∧ c ≤ 102 then some (c - 97 + 10)
  else none

/-- the bytes a string of hexadecimal digit pairs stands for -/
def hexBytes : List Nat → Option (List Nat)
  | [] => some []
  | [_] => none
  | c :: c' :: cs =>
    match digitVal c, digitVal c', hexBytes cs with
    | some x, some y, some ds => some ((16 * x + y) :: ds)
    | _, _, _ => none

/-- the string at the start of a buffer -/
def cstr (buf : List Nat) : List Nat := buf.takeWhile (fun b => b != 0)

/-! ## proofs -/

theorem or_lt16 (x y : Nat) (hx : x < 16) (hy : y < 16) : (x * 16 ||| y) % 256 = 16 * x + y := by
  have h : ∀ x < 16, ∀ y < 16, (x * 16 ||| y) % 256 = 16 * x + y := by decide
  exact h x hx y hy

theorem isxdigit_iff (c : Nat) : isxdigit c = true ↔ ∃ v, digitVal c = some v := by
  simp only [isxdigit, digitVal, Bool.or_eq_true, Bool.and_eq_true, decide_eq_true_eq]
  constructor
  · intro h
    by_cases h1 : 48 ≤ c ∧ c ≤ 57
    · exact ⟨_, if_pos h1⟩
    · rw [if_neg h1]
      by_cases h2 : 65 ≤ c ∧ c ≤ 70
      · exact ⟨_, if_pos h2⟩
      · rw [if_neg h2]
        exact ⟨_, if_pos (by omega)⟩
  · rintro ⟨v, h⟩
    by_cases h1 : 48 ≤ c ∧ c ≤ 57
    · omega
    · rw [if_neg h1] at h
      by_cases h2 : 65 ≤ c ∧ c ≤ 70
      · omega
      · rw [if_neg h2] at h
        by_cases h3 : 97 ≤ c ∧ c ≤ 102
        · omega
        · rw [if_neg h3] at h; cases h

theorem hexInt_digitVal {c v : Nat} (h : digitVal c = some v) : hexInt c = v ∧ v < 16 := by
  simp only [hexInt, digitVal, Bool.and_eq_true, decide_eq_true_eq] at h ⊢
  by_cases h1 : 48 ≤ c ∧ c ≤ 57
  · rw [if_pos h1] at h ⊢; injection h with h; omega
  · rw [if_neg h1] at h ⊢
    by_cases h2 : 65 ≤ c ∧ c ≤ 70
    · rw [if_pos h2] at h ⊢; injection h with h; omega
    · rw [if_neg h2] at h ⊢
      by_cases h3 : 97 ≤ c ∧ c ≤ 102
      · rw [if_pos h3] at h ⊢; injection h with h; omega
      · rw [if_neg h3] at h; cases h

theorem parseLoop_hexBytes : ∀ (s : List Nat) ds, hexBytes s = some ds → parseLoop s = some ds := by
  intro s
  induction s using hexBytes.induct with
  | case1 => intro ds h; exact h
  | case2 => intro ds h; cases h
  | case3 c c' cs x y ds' h3 h2 h1 ih =>
    intro ds h
    rw [hexBytes, h1, h2, h3] at h
    injection h with h; subst h
    have hx := hexInt_digitVal h1
    have hy := hexInt_digitVal h2
    rw [parseLoop, ih _ h3]
    have : isxdigit c = true := (isxdigit_iff c).2 ⟨_, h1⟩
    rw [this, hx.1, hy.1, or_lt16 _ _ hx.2 hy.2]
    rfl
  | case4 c c' cs h =>
    intro ds hh
    rw [hexBytes] at hh
    split at hh
    · rename_i x y d' h1 h2 h3
      exact absurd h3 (by
        intro h3
        exact h _ _ _ h1 h2 h3)
    · cases hh

theorem hexUp_digitVal (d : Nat) (h : d < 16) : digitVal (hexUp d) = some d := by
  have : ∀ d < 16, digitVal (hexUp d) = some d := by decide
  exact this d h

theorem hexBytes_hex2 : ∀ d : List Nat, (∀ b ∈ d, b < 256) →
    hexBytes (d.map hex2).flatten = some d := by
  intro d
  induction d with
  | nil => intro _; rfl
  | cons b d ih =>
    intro h
    have hb := h b (List.mem_cons_self ..)
    rw [List.map_cons, List.flatten_cons, hex2]
    show hexBytes (_ :: _ :: (d.map hex2).flatten) = _
    rw [hexBytes, hexUp_digitVal _ (by omega), hexUp_digitVal _ (by omega),
      ih (fun x hx => h x (List.mem_cons_of_mem _ hx))]
    simp only
    rw [show 16 * (b / 16) + b % 16 = b from by omega]

theorem flat_length (d : List Nat) : (d.map hex2).flatten.length = 2 * d.length := by
  induction d with
  | nil => rfl
  | cons b d ih =>
    rw [List.map_cons, List.flatten_cons, List.length_append, ih]
    simp only [hex2, List.length_cons, List.length_nil]; omega

theorem fmtLoop_ok : ∀ (d : List Nat) (done rest : List Nat),
    2 * d.length + 1 ≤ rest.length →
    (d ≠ [] → ∃ rest', rest'.length + 1 + 2 * d.length = rest.length ∧
      fmtLoop (done ++ rest) done.length d =
        some (done ++ ((d.map hex2).flatten ++ (0 :: rest')))) := by
  intro d
  induction d with
  | nil => intro _ _ _ h; exact absurd rfl h
  | cons b d ih =>
    intro done rest hl _
    match rest, hl with
    | r0 :: r1 :: r2 :: rest, hl =>
    rw [fmtLoop, sprintfAt, if_pos (by simp only [List.length_append, List.length_cons]; omega)]
    have e : (done ++ r0 :: r1 :: r2 :: rest).take done.length = done := by simp
    have e2 : (done ++ r0 :: r1 :: r2 :: rest).drop (done.length + 3) = rest := by
      rw [← List.drop_drop, List.drop_left]; rfl
    rw [e, e2]
    simp only
    have e3 : done ++ (hex2 b ++ [0]) ++ rest = (done ++ hex2 b) ++ (0 :: rest) := by simp
    have e4 : done.length + 2 = (done ++ hex2 b).length := by simp [hex2]
    rw [e3, e4]
    cases hd : d with
    | nil =>
      refine ⟨rest, by simp, ?_⟩
      simp [fmtLoop]
    | cons b' d' =>
      rw [← hd]
      have := ih (done ++ hex2 b) (0 :: rest) (by
        simp only [List.length_cons] at hl ⊢; omega) (by rw [hd]; exact List.cons_ne_nil _ _)
      obtain ⟨r', h1, h2⟩ := this
      refine ⟨r', by simp only [List.length_cons] at h1 ⊢; omega, ?_⟩
      rw [h2]; simp

theorem hexUp_ne (d : Nat) : hexUp d ≠ 0 := by
  simp only [hexUp]; split <;> omega

theorem flat_no_nul (d : List Nat) : ∀ c ∈ (d.map hex2).flatten, c ≠ 0 := by
  intro c hc
  obtain ⟨l, hl, hcl⟩ := List.mem_flatten.1 hc
  obtain ⟨b, _, rfl⟩ := List.mem_map.1 hl
  simp only [hex2, List.mem_cons, List.not_mem_nil, or_false] at hcl
  rcases hcl with rfl | rfl <;> exact hexUp_ne _

theorem cstr_append (a r : List Nat) (h : ∀ b ∈ a, b ≠ 0) : cstr (a ++ (0 :: r)) = a := by
  induction a with
  | nil => rfl
  | cons x a ih =>
    have hx : (x != 0) = true := by simpa using h x (List.mem_cons_self ..)
    have := ih (fun b hb => h b (List.mem_cons_of_mem _ hb))
    simp only [cstr, List.cons_append, List.takeWhile_cons, hx, if_true] at this ⊢
    rw [this]

/-- **C21, formatting.**  A buffer of fewer than 65 bytes is refused; into any larger one the digest
is written inside the buffer, as 64 hexadecimal digits that stand for it, with a NUL after. -/
theorem digest_str_ok (d buf : List Nat) (hd : IsDigest d) :
    (buf.length < 65 → digestStr d buf = .enobufs) ∧
    (65 ≤ buf.length → ∃ out, digestStr d buf = .ok out ∧ out.length = buf.length ∧
      (cstr out).length = 64 ∧ hexBytes (cstr out) = some d) := by
  constructor
  · intro h; exact if_pos h
  · intro h
    have hne : d ≠ [] := by intro h0; have := hd.1; rw [h0] at this; cases this
    obtain ⟨r, h1, h2⟩ := fmtLoop_ok d [] buf (by rw [hd.1]; omega) hne
    rw [digestStr, if_neg (by simp only [digestLen]; omega)]
    rw [List.nil_append, List.length_nil, List.nil_append] at h2
    rw [h2]
    refine ⟨_, rfl, ?_, ?_, ?_⟩
    · rw [List.length_append, flat_length, List.length_cons]; omega
    · rw [cstr_append _ _ (flat_no_nul d), flat_length, hd.1]
    · rw [cstr_append _ _ (flat_no_nul d)]; exact hexBytes_hex2 d hd.2

/-- **C21, round trip.**  Parsing the string made from any digest gives that digest. -/
theorem digest_round_trip (d buf out : List Nat) (hd : IsDigest d) (h : digestStr d buf = .ok out) :
    strDigest (cstr out) = some d := by
  by_cases hb : buf.length < 65
  · rw [(digest_str_ok d buf hd).1 hb] at h; cases h
  · obtain ⟨o, h1, _, h3, h4⟩ := (digest_str_ok d buf hd).2 (by omega)
    rw [h1] at h; injection h with h; subst h
    rw [strDigest, if_neg (by rw [h3]; simp [digestLen])]
    exact parseLoop_hexBytes _ _ h4

/-- **C21, parsing.**  Any 64 hexadecimal digits, of either case, are accepted and give the bytes
they stand for; any other length is refused. -/
theorem str_digest_parse_partial (s : List Nat) :
    (s.length ≠ 64 → strDigest s = none) ∧
    (∀ d, s.length = 64 → hexBytes s = some d → strDigest s = some d) := by
  constructor
  · intro h; exact if_pos h
  · intro d h hh
    rw [strDigest, if_neg (by simp [digestLen, h])]
    exact parseLoop_hexBytes _ _ hh

/-- every pair of a string has at least one hexadecimal digit -/
def HalfHex : List Nat → Prop
  | [] => True
  | [_] => False
  | c :: c' :: cs => ((∃ v, digitVal c = some v) ∨ (∃ v, digitVal c' = some v)) ∧ HalfHex cs

/-- what is accepted exactly: 64 characters in which every pair has a hexadecimal digit -/
theorem str_digest_accepts (s : List Nat) :
    (strDigest s).isSome ↔ s.length = 64 ∧ HalfHex s := by
  have key : ∀ s : List Nat, (parseLoop s).isSome ↔ HalfHex s := by
    intro s
    induction s using hexBytes.induct with
    | case1 => simp [parseLoop, HalfHex]
    | case2 => simp [parseLoop, HalfHex]
    | case3 c c' cs x y ds' h1 h2 h3 ih =>
      rw [parseLoop, HalfHex, ← ih, ← isxdigit_iff, ← isxdigit_iff]
      cases isxdigit c <;> cases isxdigit c' <;> cases parseLoop cs <;> simp
    | case4 c c' cs h =>
      have ih : (parseLoop cs).isSome ↔ HalfHex cs := by assumption
      rw [parseLoop, HalfHex, ← ih, ← isxdigit_iff, ← isxdigit_iff]
      cases isxdigit c <;> cases isxdigit c' <;> cases parseLoop cs <;> simp
  rw [strDigest]
  by_cases h : s.length = 64
  · rw [if_neg (by simp [digestLen, h]), key]; simp [h]
  · rw [if_pos (by simpa [digestLen] using h)]; simp [h]

/-- **C21, defect.**  A string with a character that is not a hexadecimal digit is accepted, as long
as the other character of its pair is one: "0G" repeated is read as the all-zero digest, the same as
"00" repeated. -/
theorem str_digest_accepts_junk_defect :
    strDigest (List.replicate 32 [48, 71]).flatten = some (List.replicate 32 0) ∧
    hexBytes (List.replicate 32 [48, 71]).flatten = none := by decide

example : IsDigest (List.range 32) := by
  constructor
  · rfl
  · decide
example : digestStr (List.range 32) (List.replicate 65 9) ≠ .ub := by decide
example : hexBytes [102, 70] = some [255] := by decide

end Verif.Digest
