import Verif.Dstr.Spec

/-!
# Lemmas about the dynamic string
-/

namespace Verif.Dstr

/-- the memory of the string is as large as it says -/
structure Inv (d : Ds) : Prop where
  static : d.static.length = 200
  size : (block d).length = d.capacity
  low : 200 ≤ d.capacity
  high : d.capacity ≤ 2147483647

theorem shows_block {d : Ds} {c : Client} : Shows d c ↔ (∃ rest, block d = c.text ++ 0 :: rest) ∧ 0 ∉ c.text ∧ d.length = c.text.length ∧ d.dead = c.dead := Iff.rfl

theorem takeWhile_nul : ∀ {s rest : Str}, 0 ∉ s → (s ++ 0 :: rest).takeWhile (· ≠ 0) = s
  | [], _, _ => by simp
  | a :: s, rest, h => by
    simp only [List.mem_cons, not_or] at h
    have : a ≠ 0 := fun e => h.1 e.symm
    rw [List.cons_append, List.takeWhile_cons_of_pos (by simpa using this), takeWhile_nul h.2]

theorem cstr_nul {s rest : Str} (h : 0 ∉ s) : cstr (s ++ 0 :: rest) = .ok s := by
  unfold cstr
  rw [if_pos (by simp), takeWhile_nul h]

theorem block_put {d : Ds} {b : Str} : block (putBlock d b) = b := by
  unfold block putBlock
  cases d.heap <;> rfl

theorem write_fill {t rest s : Str} (h : s.length ≤ rest.length) : write (t ++ rest) t.length s = .ok (t ++ s ++ rest.drop s.length) := by
  unfold write
  rw [if_pos (by simp; omega)]
  simp [List.drop_append]

theorem endAt_fill {d : Ds} {t rest : Str} (h : block d = t ++ rest) (hr : 0 < rest.length) :
    endAt d (t.length : Nat) = .ok (putBlock d (t ++ 0 :: rest.drop 1)) := by
  unfold endAt
  rw [if_neg (by omega), h, Int.toNat_natCast, write_fill (s := [0]) (by simp; omega)]
  simp

theorem ncpy_all {s : Str} {n : Nat} (h : n ≤ s.length) : ncpy s n = s.take n := by
  unfold ncpy
  rw [show n - s.length = 0 by omega]
  simp

theorem malloc_length {m : Mem} {n : Nat} {b : Str} (h : malloc m n = some b) : b.length = n := by
  unfold malloc at h
  split at h
  · cases h; simp
  · cases h

theorem malloc_none {m : Mem} {n : Nat} (h : malloc m n = none) : m.ok = false := by
  unfold malloc at h
  split at h
  · cases h
  · simpa using ‹¬ m.ok = true›

theorem inv_put {d : Ds} {b : Str} {n : Nat} (h : Inv d) (hb : b.length = d.capacity) : Inv { putBlock d b with length := n } := by
  obtain ⟨h1, h2, h3, h4⟩ := h
  unfold putBlock
  unfold block at h2
  cases hh : d.heap with
  | none =>
    rw [hh] at h2
    simp only at h2 ⊢
    exact ⟨by simp only; omega, by simpa [block, hh] using hb, h3, h4⟩
  | some x => exact ⟨h1, by simpa [block] using hb, h3, h4⟩

theorem dead_put {d : Ds} {b : Str} : (putBlock d b).dead = d.dead := by
  unfold putBlock; cases d.heap <;> rfl

theorem cap_put {d : Ds} {b : Str} : (putBlock d b).capacity = d.capacity := by
  unfold putBlock; cases d.heap <;> rfl

theorem len_put {d : Ds} {b : Str} : (putBlock d b).length = d.length := by
  unfold putBlock; cases d.heap <;> rfl

theorem block_len {d : Ds} {n : Nat} : block { d with length := n } = block d := rfl

theorem put_len {d : Ds} {b : Str} {n : Nat} : putBlock { d with length := n } b = { putBlock d b with length := n } := by
  unfold putBlock
  cases h : d.heap <;> simp [h]

theorem put_put {d : Ds} {a b : Str} : putBlock (putBlock d a) b = putBlock d b := by
  unfold putBlock
  cases h : d.heap <;> simp

/-- the two writes of a copy: `s` after `t`, and the NUL -/
theorem copy_ok {d : Ds} {t rest s : Str} (hb : block d = t ++ rest) (hs : 0 ∉ t ++ s) (hl : s.length < rest.length) :
    ∃ b, write (block d) t.length s = .ok b ∧ endAt { putBlock d b with length := (t ++ s).length } ((t ++ s).length : Nat) =
      .ok { putBlock d ((t ++ s) ++ 0 :: rest.drop (s.length + 1)) with length := (t ++ s).length } ∧
      cstr (t ++ s ++ 0 :: rest.drop (s.length + 1)) = .ok (t ++ s) := by
  refine ⟨t ++ s ++ rest.drop s.length, ?_, ?_, cstr_nul hs⟩
  · rw [hb]; exact write_fill (by omega)
  · rw [endAt_fill (t := t ++ s) (rest := rest.drop s.length) (by rw [block_len, block_put]) (by simp; omega)]
    rw [put_len, put_put, List.drop_drop]

theorem grown_gt {n : Nat} (h : 200 ≤ n) (h2 : n < 2147483647) : n < grown n ∧ grown n ≤ 2147483647 := by
  unfold grown INT_MAX
  split <;> omega

theorem toInt_small {n : Nat} (h : n < 2147483648) : toInt n = (n : Int) := by
  unfold toInt
  rw [Nat.mod_eq_of_lt (by omega), if_pos h]

/-- the copy of `dstr_set` into a block that is large enough -/
theorem set_copy {d : Ds} (h : Inv d) {s : Str} (hs : 0 ∉ s) (hl : s.length < d.capacity) :
    ∃ e, (match write (block d) 0 (ncpy s s.length) with
      | .error x => (.error x : Out (Ds × Option Str))
      | .ok b =>
        match endAt { putBlock d b with length := (s.length : Int).toNat } (s.length : Nat) with
        | .error x => .error x
        | .ok d =>
          match cstr (block d) with
          | .error x => .error x
          | .ok r => .ok (d, some r)) = .ok (e, some s) ∧ Inv e ∧ Shows e ⟨s, d.dead⟩ := by
  obtain ⟨b, h1, h2, h3⟩ := copy_ok (d := d) (t := []) (s := s) (rest := block d) rfl (by simpa using hs) (by rw [h.size]; exact hl)
  refine ⟨{ putBlock d (s ++ 0 :: (block d).drop (s.length + 1)) with length := s.length }, ?_, ?_, ?_⟩
  · rw [ncpy_all (Nat.le_refl _), List.take_length]
    simp only [List.length_nil] at h1
    rw [h1]
    simp only [List.nil_append, Int.toNat_natCast] at h2 h3 ⊢
    rw [h2]
    simp only [block_len, block_put]
    rw [h3]
  · apply inv_put h
    have := h.size
    simp
    omega
  · rw [shows_block]
    exact ⟨⟨_, by rw [block_len, block_put]⟩, hs, rfl, dead_put⟩

theorem set_does {d : Ds} {c : Client} (h : Inv d) (hc : Shows d c) (m : Mem) {s : Str} (hs : 0 ∉ s) (hl : s.length < 2147483647) :
    ∃ e c' r, set d m s = .ok (e, r) ∧ Inv e ∧ Shows e c' ∧ Replace m.ok c s c' r := by
  unfold set
  have h0 : Inv { d with dead := false } := ⟨h.static, h.size, h.low, h.high⟩
  simp only
  rw [if_neg (show ¬ INT_MAX < s.length by unfold INT_MAX; omega), toInt_small (by omega)]
  by_cases hg : (s.length : Int) ≥ d.capacity
  · rw [if_pos hg]
    have hlow := h.low
    obtain ⟨g1, g2⟩ := grown_gt (n := s.length) (by omega) hl
    rw [Int.toNat_natCast]
    cases hm : malloc m (grown s.length) with
    | none =>
      refine ⟨{ d with dead := true }, ⟨c.text, true⟩, none, rfl, ⟨h.static, h.size, h.low, h.high⟩, ?_, .failed (by omega) (malloc_none hm)⟩
      exact ⟨hc.1, hc.2.1, hc.2.2.1, rfl⟩
    | some b =>
      have hb := malloc_length hm
      obtain ⟨e, h1, h2, h3⟩ := set_copy (d := { d with dead := false, capacity := grown s.length, heap := some b })
        ⟨h.static, by simpa [block] using hb, by simp only; omega, by simp only; omega⟩ hs (by simpa using g1)
      exact ⟨e, _, _, h1, h2, h3, .ok⟩
  · rw [if_neg hg]
    obtain ⟨e, h1, h2, h3⟩ := set_copy h0 hs (by simp only; omega)
    exact ⟨e, _, _, h1, h2, h3, .ok⟩

/-- the copy of `dstrcat` into a block that is large enough -/
theorem cat_copy {d : Ds} {t : Str} (h : Inv d) (hd : Shows d ⟨t, d.dead⟩) {s x : Str} {k : Nat} (hx : x = s.take k) (hk : k ≤ s.length) (hs : 0 ∉ s)
    (hl : k + t.length < d.capacity) :
    ∃ e, (match write (block d) d.length (ncpy s k) with
      | .error x => (.error x : Out (Ds × Option Str))
      | .ok b =>
        match endAt { putBlock d b with length := d.length + k } ((k + t.length : Nat) : Int) with
        | .error x => .error x
        | .ok d =>
          match cstr (block d) with
          | .error x => .error x
          | .ok r => .ok (d, some r)) = .ok (e, some (t ++ x)) ∧ Inv e ∧ Shows e ⟨t ++ x, d.dead⟩ := by
  obtain ⟨⟨rest, hr⟩, h1, h2, -⟩ := shows_block.1 hd
  simp only at hr h1 h2
  have hxl : x.length = k := by rw [hx]; simp; omega
  have hnx : 0 ∉ t ++ x := by
    simp only [List.mem_append, not_or]
    exact ⟨h1, fun hm => hs (by rw [hx] at hm; exact List.mem_of_mem_take hm)⟩
  have hsz := h.size
  rw [hr] at hsz
  simp only [List.length_append, List.length_cons] at hsz
  obtain ⟨b, g1, g2, g3⟩ := copy_ok hr hnx (by simp only [List.length_cons]; omega)
  have hk2 : (k + t.length : Nat) = (t ++ x).length := by simp; omega
  refine ⟨{ putBlock d ((t ++ x) ++ 0 :: (0 :: rest).drop (x.length + 1)) with length := (t ++ x).length }, ?_, ?_, ?_⟩
  · rw [ncpy_all hk, ← hx, h2, g1]
    simp only
    rw [hk2, show t.length + k = (t ++ x).length by simp; omega, g2]
    simp only [block_len, block_put]
    rw [g3]
  · apply inv_put h
    simp
    omega
  · rw [shows_block]
    exact ⟨⟨_, by rw [block_len, block_put]⟩, hnx, rfl, dead_put⟩

theorem cat_does {d : Ds} {c : Client} (h : Inv d) (hc : Shows d c) (m : Mem) {s : Str} {n : Int} (hs : 0 ∉ s) :
    ∃ e c' r, cat d m s n = .ok (e, r) ∧ Inv e ∧ Shows e c' ∧ (s.length ≤ 2147483647 → Append m.ok c (if n < 0 then s else s.take n.toNat) c' r) ∧
      (2147483647 < s.length → c' = c ∧ r = none) := by
  obtain ⟨text, dead⟩ := c
  obtain ⟨⟨rest, hr⟩, h1, h2, h3⟩ := shows_block.1 hc
  obtain ⟨st, hp, len, cap, dd⟩ := d
  simp only at hr h1 h2 h3
  subst h2
  unfold cat
  by_cases hd : dd = true
  · rw [if_pos hd]
    exact ⟨_, _, none, rfl, h, hc, fun _ => .dead (by simpa using h3.symm.trans hd), fun _ => ⟨rfl, rfl⟩⟩
  rw [if_neg hd]
  have hd : dd = false := by simpa using hd
  have hdd : dead = false := by rw [← h3]; exact hd
  subst hdd
  by_cases hb : INT_MAX < s.length
  · rw [if_pos hb]
    unfold INT_MAX at hb
    exact ⟨_, _, none, rfl, h, hc, fun hh => by omega, fun _ => ⟨rfl, rfl⟩⟩
  rw [if_neg hb]
  unfold INT_MAX at hb
  have hx : (if n < 0 then s else s.take n.toNat) = s.take (if n < 0 then s.length else min n.toNat s.length) := by
    split
    · rw [List.take_length]
    · rw [List.take_eq_take_iff]; omega
  have hk : (if n < 0 then s.length else min n.toNat s.length) ≤ s.length := by split <;> omega
  generalize hxx : (if n < 0 then s else s.take n.toNat) = x at hx ⊢
  generalize (if n < 0 then s.length else min n.toNat s.length) = k at hx hk ⊢
  have hxl : x.length = k := by rw [hx]; simp; omega
  simp only
  by_cases hbig : k + text.length > INT_MAX - 1
  · rw [if_pos hbig]
    unfold INT_MAX at hbig
    exact ⟨_, _, none, rfl, h, hc, fun _ => .long rfl (by simp only; omega), fun hh => by omega⟩
  rw [if_neg hbig]
  unfold INT_MAX at hbig
  by_cases hg : k + text.length ≥ cap
  · rw [if_pos hg]
    have hlow := h.low
    simp only at hlow
    obtain ⟨g1, g2⟩ := grown_gt (n := k + text.length) (by omega) (by omega)
    cases hm : malloc m (grown (k + text.length)) with
    | none =>
      exact ⟨⟨st, hp, text.length, cap, true⟩, ⟨text, true⟩, none, rfl, ⟨h.static, h.size, h.low, h.high⟩, ⟨hc.1, h1, rfl, rfl⟩,
        fun _ => .failed rfl (by simp only; omega) (by simp only; omega) (malloc_none hm), fun hh => by omega⟩
    | some b =>
      have hbl := malloc_length hm
      simp only
      rw [hr, cstr_nul h1]
      simp only
      rw [ncpy_all (Nat.le_refl _), List.take_length]
      have hw := write_fill (t := []) (s := text) (rest := b) (by omega)
      simp only [List.nil_append, List.length_nil] at hw
      rw [hw]
      simp only
      obtain ⟨y, ys, hy⟩ : ∃ y ys, b.drop text.length = y :: ys := by
        cases hh : b.drop text.length with
        | nil => have := congrArg List.length hh; simp at this; omega
        | cons y ys => exact ⟨y, ys, rfl⟩
      have hbl2 : (text ++ b.drop text.length).length = grown (k + text.length) := by simp; omega
      obtain ⟨z, hw1, hw2, hw3⟩ := copy_ok (d := ⟨st, some (text ++ b.drop text.length), text.length, grown (k + text.length), dd⟩) (t := text) (s := x)
        (rest := b.drop text.length) rfl (by
          simp only [List.mem_append, not_or]
          exact ⟨h1, fun hm => hs (by rw [hx] at hm; exact List.mem_of_mem_take hm)⟩) (by simp; omega)
      refine ⟨{ putBlock ⟨st, some (text ++ b.drop text.length), text.length, grown (k + text.length), dd⟩
        ((text ++ x) ++ 0 :: (b.drop text.length).drop (x.length + 1)) with length := (text ++ x).length }, ⟨text ++ x, false⟩, some (text ++ x), ?_, ?_, ?_, ?_, ?_⟩
      · rw [ncpy_all hk, ← hx]
        rw [hw1]
        simp only
        have e1 : k + text.length = (text ++ x).length := by simp; omega
        have e2 : text.length + k = (text ++ x).length := by simp; omega
        rw [show ((k + text.length : Nat) : Int) = ((text ++ x).length : Nat) by rw [e1], e2, hw2]
        simp only [block_len, block_put]
        rw [hw3]
      · refine inv_put (d := ⟨st, some (text ++ b.drop text.length), text.length, grown (k + text.length), dd⟩) ⟨h.static, hbl2, by simp only; omega, by simp only; omega⟩ ?_
        simp
        omega
      · rw [shows_block]
        refine ⟨⟨_, by rw [block_len, block_put]⟩, ?_, rfl, hd⟩
        simp only [List.mem_append, not_or]
        exact ⟨h1, fun hm => hs (by rw [hx] at hm; exact List.mem_of_mem_take hm)⟩
      · exact fun _ => .ok rfl (by simp only; omega)
      · exact fun hh => by omega
  · rw [if_neg hg]
    obtain ⟨e, g1, g2, g3⟩ := cat_copy (t := text) h (by subst hd; exact hc) hx hk hs (by simp only; omega)
    refine ⟨e, ⟨text ++ x, false⟩, some (text ++ x), g1, g2, by subst hd; exact g3, fun _ => .ok rfl (by simp only; omega), fun hh => by omega⟩

end Verif.Dstr
