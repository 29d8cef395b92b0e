import Verif.Secret.Spec

/-! # Proofs about reading the secret word -/

namespace Verif.Secret

theorem cut_line : ∀ (n : Nat) (l r : Str), l.length < n → 10 ∉ l → cut n (l ++ 10 :: r) = (l ++ [10], r)
  | 0, _, _, h, _ => by omega
  | n + 1, [], r, _, _ => by simp [cut]
  | n + 1, c :: l, r, h, hn => by
    rw [List.mem_cons, not_or] at hn
    simp only [List.length_cons] at h
    rw [List.cons_append, cut, if_neg (Ne.symm hn.1), cut_line n l r (by omega) hn.2]
    rfl

theorem cut_last : ∀ (n : Nat) (l : Str), l.length ≤ n → 10 ∉ l → cut n l = (l, [])
  | 0, [], _, _ => rfl
  | 0, _ :: _, h, _ => by simp at h
  | n + 1, [], _, _ => rfl
  | n + 1, c :: l, h, hn => by
    rw [List.mem_cons, not_or] at hn
    simp only [List.length_cons] at h
    rw [cut, if_neg (Ne.symm hn.1), cut_last n l (by omega) hn.2]

theorem cut_append : ∀ (n : Nat) (b : Str), (cut n b).1 ++ (cut n b).2 = b
  | 0, _ => rfl
  | _ + 1, [] => rfl
  | n + 1, c :: b => by
    rw [cut]
    split
    · rename_i h; rw [h]; rfl
    · simp [cut_append n b]

theorem mem_take {p : Nat → Bool} {c : Nat} : ∀ {l : Str}, c ∈ l.takeWhile p → p c = true
  | [], h => by simp at h
  | x :: l, h => by
    rw [List.takeWhile_cons] at h
    split at h
    · rename_i hx
      rcases List.mem_cons.1 h with rfl | h
      · exact hx
      · exact mem_take h
    · simp at h

theorem drop_nil {p : Nat → Bool} : ∀ {l : Str}, l.dropWhile p = [] → ∀ c ∈ l, p c = true
  | [], _, _, hc => by simp at hc
  | x :: l, h, c, hc => by
    rw [List.dropWhile_cons] at h
    split at h
    · rename_i hx
      rcases List.mem_cons.1 hc with rfl | hc
      · exact hx
      · exact drop_nil h c hc
    · exact nomatch h

theorem take_all : ∀ {l : Str}, 0 ∉ l → l.takeWhile (· ≠ 0) = l
  | [], _ => rfl
  | c :: l, h => by
    rw [List.mem_cons, not_or] at h
    rw [List.takeWhile_cons_of_pos (by simpa using Ne.symm h.1), take_all h.2]

/-- the result for the line with the key -/
def taken (s : Str) : Except Nat Str := if token (s.drop 11) = [] then .error EINVAL else .ok (token (s.drop 11))

theorem scan_cons (c : Nat) (t : Str) : scan (c :: t) = if key <+: (cut 527 (c :: t)).1.takeWhile (· ≠ 0) then
    taken ((cut 527 (c :: t)).1.takeWhile (· ≠ 0)) else scan (cut 527 (c :: t)).2 := by
  rw [scan]
  by_cases h : c = 35 ∨ c = 10
  · rw [if_pos h, if_neg]
    intro hp
    rw [cut] at hp
    rcases h with rfl | rfl
    · simp [key] at hp
    · simp [key] at hp
  · rw [if_neg h]
    dsimp only
    by_cases hk : key <+: (cut 527 (c :: t)).1.takeWhile (· ≠ 0)
    · rw [if_pos hk, if_pos (List.isPrefixOf_iff_prefix.2 hk)]
      rfl
    · rw [if_neg hk, if_neg (by rw [List.isPrefixOf_iff_prefix]; exact hk)]

theorem prefix_line {l : Str} : key <+: l ++ [10] ↔ key <+: l := by
  refine ⟨fun ⟨t, h⟩ => ?_, fun h => h.trans (List.prefix_append _ _)⟩
  rcases List.eq_nil_or_concat t with rfl | ⟨t', x, rfl⟩
  · have := congrArg List.getLast? h
    simp [key] at this
  · rw [List.concat_eq_append, ← List.append_assoc] at h
    exact ⟨t', (List.append_inj' h rfl).1⟩

theorem scan_line {l r : Str} (h0 : 0 ∉ l) (hn : 10 ∉ l) (hl : l.length ≤ 526) :
    scan (l ++ 10 :: r) = if key <+: l then taken (l ++ [10]) else scan r := by
  have e := cut_line 527 l r (by omega) hn
  have hc : ∃ c t, l ++ 10 :: r = c :: t := by cases l <;> exact ⟨_, _, rfl⟩
  obtain ⟨c, t, h⟩ := hc
  rw [h] at e ⊢
  rw [scan_cons, e]
  dsimp only
  rw [take_all (by simp [h0])]
  by_cases hk : key <+: l
  · rw [if_pos hk, if_pos (prefix_line.2 hk)]
  · rw [if_neg hk, if_neg (fun h => hk (prefix_line.1 h))]

theorem scan_last {l : Str} (h0 : 0 ∉ l) (hn : 10 ∉ l) (hl : l.length ≤ 526) :
    scan l = if key <+: l then taken l else .error ENOENT := by
  cases l with
  | nil => rw [scan, if_neg (by simp [key])]
  | cons c t =>
    have e := cut_last 527 (c :: t) (by omega) hn
    rw [scan_cons, e]
    dsimp only
    rw [take_all h0]
    by_cases hk : key <+: c :: t
    · rw [if_pos hk, if_pos hk]
    · rw [if_neg hk, if_neg hk, scan]

theorem delim_iff (c : Nat) : delim c = true ↔ Ends c := by
  simp only [delim, Ends, Bool.or_eq_true, beq_iff_eq]
  omega

theorem token_parts {a w b : Str} (ha : ∀ c ∈ a, Ends c) (hw : w ≠ []) (hn : ∀ c ∈ w, ¬ Ends c) (hb : ∀ c, b.head? = some c → Ends c) :
    token (a ++ w ++ b) = w := by
  unfold token
  have h1 : ∀ (a r : Str), (∀ c ∈ a, Ends c) → (a ++ r).dropWhile delim = r.dropWhile delim := by
    intro a r h
    induction a with
    | nil => rfl
    | cons c a ih =>
      rw [List.cons_append, List.dropWhile_cons_of_pos ((delim_iff c).2 (h c (by simp))), ih fun x hx => h x (by simp [hx])]
  rw [List.append_assoc, h1 a _ ha]
  obtain ⟨c, w', rfl⟩ := List.exists_cons_of_ne_nil hw
  rw [List.cons_append, List.dropWhile_cons_of_neg (by rw [delim_iff]; exact hn c (by simp)), ← List.cons_append]
  rw [List.takeWhile_append_of_pos (by
    intro x hx
    have : ¬ delim x = true := by rw [delim_iff]; exact hn x hx
    simpa using this)]
  have : b.takeWhile (fun c => !delim c) = [] := by
    cases b with
    | nil => rfl
    | cons x b =>
      rw [List.takeWhile_cons_of_neg]
      have := (delim_iff x).2 (hb x rfl)
      simp [this]
  rw [this, List.append_nil]

theorem token_cut {s w : Str} (h : token s = w) (hw : w ≠ []) :
    ∃ a b, s = a ++ w ++ b ∧ (∀ c ∈ a, Ends c) ∧ (∀ c ∈ w, ¬ Ends c) ∧ ∀ c, b.head? = some c → Ends c := by
  subst h
  refine ⟨s.takeWhile delim, (s.dropWhile delim).dropWhile fun c => !delim c, ?_, ?_, ?_, ?_⟩
  · unfold token
    rw [List.append_assoc, List.takeWhile_append_dropWhile, List.takeWhile_append_dropWhile]
  · intro c hc
    exact (delim_iff c).1 (mem_take hc)
  · intro c hc
    have := mem_take hc
    rw [← delim_iff]
    simpa using this
  · intro c hc
    have := List.head?_dropWhile_not (fun c => !delim c) (s.dropWhile delim)
    rw [hc] at this
    rw [← delim_iff]
    simpa using this

theorem token_none {s : Str} (h : token s = []) : ∀ c ∈ s, Ends c := by
  unfold token at h
  intro c hc
  by_cases e : s.dropWhile delim = []
  · exact (delim_iff c).1 (drop_nil e c hc)
  · obtain ⟨x, t, hx⟩ := List.exists_cons_of_ne_nil e
    have := List.head?_dropWhile_not delim s
    rw [hx] at this h
    simp only [List.head?_cons] at this
    rw [List.takeWhile_cons_of_pos (by simpa using this)] at h
    exact nomatch h

theorem taken_iff {s w : Str} : taken s = .ok w ↔ token (s.drop 11) = w ∧ w ≠ [] := by
  unfold taken
  split
  · rename_i h
    refine ⟨(fun e => nomatch e), fun ⟨e, hw⟩ => absurd (e.symm.trans h) hw⟩
  · rename_i h
    refine ⟨fun e => ?_, fun ⟨e, hw⟩ => by rw [e]⟩
    injection e with e
    exact ⟨e, fun hw => h (e.trans hw)⟩

theorem key_eq : key = asked := rfl

theorem drop_key {l : Str} (h : asked <+: l) : l = asked ++ l.drop 11 := by
  obtain ⟨t, rfl⟩ := h
  rfl

theorem taken_last {l w : Str} (h : asked <+: l) : taken l = .ok w ↔ WordOf l w := by
  rw [taken_iff]
  constructor
  · rintro ⟨e, hw⟩
    obtain ⟨a, b, h1, h2, h3, h4⟩ := token_cut e hw
    refine ⟨a, b, ?_, h2, hw, h3, h4⟩
    rw [drop_key h, h1]
    simp
  · rintro ⟨a, b, rfl, h2, hw, h3, h4⟩
    refine ⟨?_, hw⟩
    have : (asked ++ a ++ w ++ b).drop 11 = a ++ w ++ b := by
      rw [List.append_assoc, List.append_assoc]
      simp [asked]
    rw [this]
    exact token_parts h2 hw h3 h4

theorem taken_line {l w : Str} (h : asked <+: l) : taken (l ++ [10]) = .ok w ↔ WordOf l w := by
  have hd : (l ++ [10]).drop 11 = l.drop 11 ++ [10] := by
    obtain ⟨t, rfl⟩ := h
    simp [asked]
  rw [taken_iff, hd]
  constructor
  · rintro ⟨e, hw⟩
    obtain ⟨a, b, h1, h2, h3, h4⟩ := token_cut e hw
    rcases List.eq_nil_or_concat b with rfl | ⟨b', x, rfl⟩
    · rcases List.eq_nil_or_concat w with rfl | ⟨w', x, rfl⟩
      · exact absurd rfl hw
      · rw [List.append_nil, List.concat_eq_append, ← List.append_assoc] at h1
        have := (List.append_inj' h1 rfl).2
        injection this with this
        exact absurd (by rw [← this]; exact .inr (.inr (.inl rfl))) (h3 x (by simp))
    · rw [List.concat_eq_append, ← List.append_assoc] at h1
      have hl := (List.append_inj' h1 rfl).1
      refine ⟨a, b', ?_, h2, hw, h3, ?_⟩
      · rw [drop_key h, hl]
        simp
      · intro c hc
        apply h4 c
        cases b' with
        | nil => exact nomatch hc
        | cons y t => exact hc
  · rintro ⟨a, b, rfl, h2, hw, h3, h4⟩
    refine ⟨?_, hw⟩
    have : (asked ++ a ++ w ++ b).drop 11 ++ [10] = a ++ w ++ (b ++ [10]) := by
      rw [List.append_assoc, List.append_assoc]
      simp [asked]
    rw [this]
    refine token_parts h2 hw h3 ?_
    intro c hc
    cases b with
    | nil => injection hc with hc; rw [← hc]; exact .inr (.inr (.inl rfl))
    | cons y t => exact h4 c hc

/-- the lines up to the one with the key -/
theorem scan_lines {w : Str} : ∀ (ls : List Str) (last : Str), (∀ l ∈ ls ++ [last], 10 ∉ l) → Plain (ls ++ [last]) →
    (scan ((ls.flatMap fun l => l ++ [10]) ++ last) = .ok w ↔ ∃ l, FirstLine (ls ++ [last]) l ∧ WordOf l w)
  | [], last, hn, hp => by
    have e := scan_last (hp.text last (by simp)) (hn last (by simp)) (hp.short last (by simp))
    rw [List.flatMap_nil, List.nil_append, e, key_eq]
    by_cases hk : asked <+: last
    · rw [if_pos hk, taken_last hk]
      constructor
      · exact fun h => ⟨last, ⟨[], [], rfl, by simp, hk⟩, h⟩
      · rintro ⟨l, ⟨before, after, h1, _, _⟩, h⟩
        cases before with
        | nil => injection h1 with h1 _; rw [h1]; exact h
        | cons x t => have := congrArg List.length h1; simp at this
    · rw [if_neg hk]
      refine ⟨fun h => (nomatch h), ?_⟩
      rintro ⟨l, ⟨before, after, h1, _, h3⟩, h⟩
      cases before with
      | nil => injection h1 with h1 _; rw [h1] at hk; exact absurd h3 hk
      | cons x t => have := congrArg List.length h1; simp at this
  | x :: ls, last, hn, hp => by
    have e := scan_line (r := (ls.flatMap fun l => l ++ [10]) ++ last) (hp.text x (by simp)) (hn x (by simp)) (hp.short x (by simp))
    have ih := scan_lines (w := w) ls last (fun l hl => hn l (by simp only [List.cons_append, List.mem_cons]; exact .inr hl))
      ⟨fun l hl => hp.text l (by simp only [List.cons_append, List.mem_cons]; exact .inr hl),
       fun l hl => hp.short l (by simp only [List.cons_append, List.mem_cons]; exact .inr hl)⟩
    have ef : ((x :: ls).flatMap fun l => l ++ [10]) ++ last = x ++ 10 :: ((ls.flatMap fun l => l ++ [10]) ++ last) := by simp
    rw [ef, e, key_eq, List.cons_append]
    by_cases hk : asked <+: x
    · rw [if_pos hk, taken_line hk]
      constructor
      · exact fun h => ⟨x, ⟨[], _, rfl, by simp, hk⟩, h⟩
      · rintro ⟨l, ⟨before, after, h1, h2, _⟩, h⟩
        cases before with
        | nil => injection h1 with h1 _; rw [h1]; exact h
        | cons y t => injection h1 with h1 _; exact absurd (h1 ▸ hk) (h2 y (by simp))
    · rw [if_neg hk, ih]
      constructor
      · rintro ⟨l, ⟨before, after, h1, h2, h3⟩, h⟩
        exact ⟨l, ⟨x :: before, after, by rw [h1]; rfl, by
          intro y hy; rcases List.mem_cons.1 hy with rfl | hy
          · exact hk
          · exact h2 y hy, h3⟩, h⟩
      · rintro ⟨l, ⟨before, after, h1, h2, h3⟩, h⟩
        cases before with
        | nil => injection h1 with h1 _; rw [h1] at hk; exact absurd h3 hk
        | cons y t => injection h1 with _ h1; exact ⟨l, ⟨t, after, h1, fun z hz => h2 z (by simp [hz]), h3⟩, h⟩

/-- a word of any file -/
theorem scan_any {w : Str} : ∀ (n : Nat) (b : Str), b.length ≤ n → scan b = .ok w →
    w ≠ [] ∧ (∀ c ∈ w, ¬ Ends c ∧ c ≠ 0) ∧ ∃ x a y, b = x ++ asked ++ a ++ w ++ y ∧ ∀ c ∈ a, Ends c
  | n, [], _, h => by rw [scan] at h; exact nomatch h
  | 0, _ :: _, hl, _ => by simp at hl
  | n + 1, c :: t, hl, h => by
    have hcut := cut_append 527 (c :: t)
    rw [scan_cons] at h
    split at h
    · rename_i hk
      obtain ⟨e, hw⟩ := taken_iff.1 h
      obtain ⟨a, y, h1, h2, h3, _⟩ := token_cut e hw
      have hs := drop_key (key_eq ▸ hk)
      rw [h1] at hs
      have h0 : ∀ x ∈ w, x ≠ 0 := by
        intro x hx e0
        have hm : x ∈ (cut 527 (c :: t)).1.takeWhile (· ≠ 0) := by rw [hs]; simp [hx]
        have := mem_take hm
        simp [e0] at this
      have hsplit := List.takeWhile_append_dropWhile (p := (· ≠ 0)) (l := (cut 527 (c :: t)).1)
      refine ⟨hw, fun x hx => ⟨h3 x hx, h0 x hx⟩, [], a, y ++ ((cut 527 (c :: t)).1.dropWhile (· ≠ 0)) ++ (cut 527 (c :: t)).2, ?_, h2⟩
      refine (hcut.symm.trans (congrArg (· ++ (cut 527 (c :: t)).2) hsplit.symm)).trans ?_
      rw [hs]
      simp
    · have hlt : (cut 527 (c :: t)).2.length ≤ n := by
        rw [cut]
        simp only [List.length_cons] at hl
        split
        · show t.length ≤ n; omega
        · have := cut_le 526 t
          show (cut 526 t).2.length ≤ n; omega
      obtain ⟨g1, g2, x, a, y, g3, g4⟩ := scan_any n _ hlt h
      refine ⟨g1, g2, (cut 527 (c :: t)).1 ++ x, a, y, ?_, g4⟩
      refine hcut.symm.trans ?_
      rw [g3]
      simp

theorem private_iff {mode : Nat} : mode &&& 63 = 0 ↔ Private mode := by
  constructor
  · intro h i hi
    have := congrArg (fun n => n.testBit i) h
    simp only [Nat.testBit_and, Nat.zero_testBit] at this
    have h63 : Nat.testBit 63 i = true := by
      have : i = 0 ∨ i = 1 ∨ i = 2 ∨ i = 3 ∨ i = 4 ∨ i = 5 := by omega
      rcases this with rfl | rfl | rfl | rfl | rfl | rfl <;> decide
    rw [h63, Bool.and_true] at this
    exact this
  · intro h
    apply Nat.eq_of_testBit_eq
    intro i
    rw [Nat.testBit_and, Nat.zero_testBit]
    by_cases hi : i < 6
    · rw [h i hi, Bool.false_and]
    · have : Nat.testBit 63 i = false := Nat.testBit_lt_two_pow (Nat.lt_of_lt_of_le (by decide : 63 < 2 ^ 6) (Nat.pow_le_pow_right (by decide) (by omega)))
      rw [this, Bool.and_false]

end Verif.Secret
