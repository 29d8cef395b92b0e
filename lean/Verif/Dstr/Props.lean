import Verif.Dstr.Proofs

/-!
# C82: dynamic strings
-/

namespace Verif.Dstr

theorem digits_digits (n : Nat) : Digits (digits n) n := by
  induction n using Nat.strongRecOn with
  | ind n ih =>
    rw [digits]
    by_cases h : n < 10
    · rw [if_pos h]; exact .one h
    · rw [if_neg h]
      have := Digits.more (ih (n / 10) (by omega)) (by omega) (Nat.mod_lt n (by decide : 0 < 10))
      rwa [show 10 * (n / 10) + n % 10 = n by omega] at this

theorem digits_nul {t : Str} {n : Nat} (h : Digits t n) : 0 ∉ t := by
  induction h with
  | one _ => simp; omega
  | more _ _ _ ih => simp only [List.mem_append, not_or]; exact ⟨ih, by simp; omega⟩

theorem digits_length {t : Str} {n : Nat} (h : Digits t n) : ∀ k, n < 10 ^ (k + 1) → t.length ≤ k + 1 := by
  induction h with
  | one _ => intro k _; simp
  | @more t n c _ h0 _ ih =>
    intro k hk
    cases k with
    | zero => omega
    | succ k =>
      have := ih k (by rw [Nat.pow_succ] at hk; omega)
      simp
      omega

theorem text_ok {v : Int} (h : -2 ^ 63 ≤ v ∧ v < 2 ^ 64) : IntText (text v) v ∧ 0 ∉ text v ∧ (text v).length ≤ 20 := by
  unfold text
  by_cases hv : v < 0
  · rw [if_pos hv]
    have hd := digits_digits v.natAbs
    refine ⟨.inr ⟨hv, _, rfl, hd⟩, ?_, ?_⟩
    · simp only [List.mem_cons, not_or]; exact ⟨by decide, digits_nul hd⟩
    · have := digits_length hd 18 (by omega)
      simp
      omega
  · rw [if_neg hv]
    have hd := digits_digits v.toNat
    exact ⟨.inl ⟨by omega, hd⟩, digits_nul hd, digits_length hd 19 (by omega)⟩

theorem init_ok (junk : Nat → Nat) : Inv (init junk) ∧ Shows (init junk) ⟨[], false⟩ := by
  refine ⟨⟨by simp [init, STATIC], by simp [init, block, STATIC], by simp [init, STATIC], by simp [init, STATIC]⟩, ?_⟩
  rw [shows_block]
  refine ⟨⟨(block (init junk)).drop 1, ?_⟩, by simp, rfl, rfl⟩
  simp [init, block, STATIC, List.range_succ_eq_map, List.range]
  rfl

theorem init2_ok (junk : Nat → Nat) (m : Mem) {cap : Int} (hm : m.ok = true) (hc : cap ≤ 2147483647) : Inv (init2 junk m cap) ∧ Shows (init2 junk m cap) ⟨[], false⟩ := by
  obtain ⟨h1, h2⟩ := init_ok junk
  unfold init2
  simp only
  by_cases hg : cap ≥ (init junk).capacity
  · rw [if_pos hg]
    unfold malloc
    rw [if_pos hm]
    simp only
    have h200 : (init junk).capacity = 200 := rfl
    rw [h200] at hg
    refine ⟨⟨h1.static, by simp [block], by simp only; omega, by simp only; omega⟩, ?_⟩
    rw [shows_block]
    obtain ⟨k, hk⟩ : ∃ k, cap.toNat = k + 1 := ⟨cap.toNat - 1, by omega⟩
    refine ⟨⟨(((List.range cap.toNat).map m.junk).set 0 0).drop 1, ?_⟩, by simp, rfl, rfl⟩
    rw [hk, List.range_succ_eq_map]
    simp [block]
  · rw [if_neg hg]
    exact ⟨h1, h2⟩

theorem free_ok {d : Ds} (h : Inv d) : Inv (free d) ∧ Shows (free d) ⟨[], false⟩ := by
  have hs := h.static
  refine ⟨⟨by simp [free, hs], by simp [free, block, STATIC, hs], by simp [free, STATIC], by simp [free, STATIC]⟩, ?_⟩
  rw [shows_block]
  obtain ⟨y, ys, hy⟩ : ∃ y ys, d.static = y :: ys := by
    cases hh : d.static with
    | nil => rw [hh] at hs; simp at hs
    | cons y ys => exact ⟨y, ys, rfl⟩
  exact ⟨⟨ys, by simp [free, block, hy]⟩, by simp, rfl, rfl⟩

theorem trunc_ok {d : Ds} {c : Client} (h : Inv d) (hc : Shows d c) (n : Int) :
    ∃ e, trunc d n = .ok e ∧ Inv e ∧ Shows e ⟨c.text.take n.toNat, c.dead⟩ := by
  obtain ⟨⟨rest, hr⟩, h1, h2, h3⟩ := shows_block.1 hc
  unfold trunc
  by_cases hn : n.toNat < d.length
  · rw [if_pos hn]
    have hb : block { d with length := n.toNat } = c.text.take n.toNat ++ (c.text.drop n.toNat ++ 0 :: rest) := by
      rw [block_len, hr, ← List.append_assoc, List.take_append_drop]
    have hl : (c.text.take n.toNat).length = n.toNat := by simp; omega
    have := endAt_fill hb (by simp; omega)
    rw [hl] at this
    rw [this]
    refine ⟨_, rfl, ?_, ?_⟩
    · rw [put_len]
      apply inv_put h
      have hsz := h.size
      rw [hr] at hsz
      simp at hsz ⊢
      omega
    · rw [shows_block, put_len, block_len, block_put]
      exact ⟨⟨_, rfl⟩, fun hm => h1 (List.mem_of_mem_take hm), hl.symm, by simpa [dead_put] using h3⟩
  · rw [if_neg hn]
    refine ⟨d, rfl, h, ?_⟩
    rw [List.take_of_length_le (by omega)]
    exact hc

theorem step_does {d : Ds} {c : Client} (h : Inv d) (hc : Shows d c) (m : Mem) {o : Op} (ho : Valid o) :
    ∃ e c' r, step d m o = .ok (e, r) ∧ Inv e ∧ Shows e c' ∧ Does m.ok c o c' r := by
  cases o with
  | set s => exact set_does h hc m ho.1 ho.2
  | setInt v =>
    obtain ⟨t1, t2, t3⟩ := text_ok ho
    obtain ⟨e, c', r, h1, h2, h3, h4⟩ := set_does h hc m t2 (by omega)
    exact ⟨e, c', r, h1, h2, h3, _, t1, h4⟩
  | cat s n =>
    obtain ⟨e, c', r, h1, h2, h3, h4, h5⟩ := cat_does (n := n) h hc m ho.1
    exact ⟨e, c', r, h1, h2, h3, h4 ho.2⟩
  | catInt v =>
    obtain ⟨t1, t2, t3⟩ := text_ok ho
    obtain ⟨e, c', r, h1, h2, h3, h4, -⟩ := cat_does (n := -1) h hc m t2
    exact ⟨e, c', r, h1, h2, h3, _, t1, by simpa using h4 (by omega)⟩
  | trunc n =>
    obtain ⟨e, h1, h2, h3⟩ := trunc_ok h hc n
    exact ⟨e, _, none, by simp only [step, h1], h2, h3, rfl, rfl⟩
  | free => exact ⟨_, _, none, rfl, (free_ok h).1, (free_ok h).2, rfl, rfl⟩
  | extract =>
    obtain ⟨⟨rest, hr⟩, h1, -⟩ := shows_block.1 hc
    refine ⟨_, _, _, ?_, (free_ok h).1, (free_ok h).2, rfl, rfl⟩
    simp only [step, extract, hr, cstr_nul h1]

theorem run_does : ∀ {os : List (Mem × Op)} {d : Ds} {c : Client}, Inv d → Shows d c → (∀ p ∈ os, Valid p.2) →
    ∃ e c', run d os = .ok e ∧ Inv e ∧ Shows e c' ∧ History c os c'
  | [], d, c, h, hc, _ => ⟨d, c, rfl, h, hc, .nil⟩
  | (m, o) :: os, d, c, h, hc, ho => by
    obtain ⟨e, c1, r, h1, h2, h3, h4⟩ := step_does h hc m (ho (m, o) (by simp))
    obtain ⟨e', c2, g1, g2, g3, g4⟩ := run_does (os := os) h2 h3 fun p hp => ho p (by simp [hp])
    exact ⟨e', c2, by simp only [run, h1, g1], g2, g3, .cons h4 g4⟩

/-- **C82.**  A dynamic string that was initialised (with `dstr_init`, or with `dstr_init2` when there is memory) is a text to its client: no call, in any
history of calls, with any failures of memory in between, writes or reads outside of the memory of the string, and each call does what it says: sets,
appends all or a part, cuts, empties, or gives a copy.  It returns the text that there is after it, or NULL with the text as it was.  NULL is
returned only if the string is dead, would be too long, or needs memory (not before 200 bytes) that is not there. -/
theorem dstring (junk : Nat → Nat) {d0 : Ds} (h0 : d0 = init junk ∨ ∃ m cap, m.ok = true ∧ cap ≤ 2147483647 ∧ d0 = init2 junk m cap)
    {os : List (Mem × Op)} (ho : ∀ p ∈ os, Valid p.2) :
    ∃ d c, run d0 os = .ok d ∧ History ⟨[], false⟩ os c ∧ Shows d c ∧
      ∀ m o, Valid o → ∃ e c' r, step d m o = .ok (e, r) ∧ Does m.ok c o c' r ∧ Shows e c' := by
  have hi : Inv d0 ∧ Shows d0 ⟨[], false⟩ := by
    rcases h0 with rfl | ⟨m, cap, h1, h2, rfl⟩
    · exact init_ok junk
    · exact init2_ok junk m h1 h2
  obtain ⟨d, c, h1, h2, h3, h4⟩ := run_does hi.1 hi.2 ho
  refine ⟨d, c, h1, h4, h3, ?_⟩
  intro m o hv
  obtain ⟨e, c', r, g1, -, g3, g4⟩ := step_does h2 h3 m hv
  exact ⟨e, c', r, g1, g4, g3⟩

private def b (s : String) : Str := s.toList.map Char.toNat
private def yes : Mem := ⟨true, fun i => i % 256⟩
private def no : Mem := ⟨false, fun _ => 0⟩

/-- a history that meets the hypotheses, with what it gives -/
example : (∀ p ∈ [(yes, Op.set (b "abc")), (yes, .cat (b "defg") 2), (yes, .catInt (-17)), (no, .trunc 6)], Valid p.2) ∧
    (match run (init fun _ => 7) [(yes, Op.set (b "abc")), (yes, .cat (b "defg") 2), (yes, .catInt (-17)), (no, .trunc 6)] with
      | .ok d => decide (d.length = 6 ∧ d.static.take 7 = b "abcde-" ++ [0])
      | .error _ => false) = true := by
  refine ⟨?_, ?_⟩
  · intro p hp
    simp only [List.mem_cons, List.not_mem_nil, or_false] at hp
    rcases hp with rfl | rfl | rfl | rfl
    · exact ⟨by decide, by decide⟩
    · exact ⟨by decide, by decide⟩
    · exact ⟨by decide, by decide⟩
    · trivial
  · have ht : text (-17) = b "-17" := by
      simp [text, digits, b]
    simp only [run, step, ht]
    decide +kernel

theorem cat_run : ∀ {xs : List (Mem × Str)} {d : Ds} {t : Str}, Inv d → Shows d ⟨t, false⟩ → (∀ p ∈ xs, 0 ∉ p.2) →
    t.length + ((xs.map (·.2)).flatten).length ≤ 2147483646 →
    ((∀ p ∈ xs, p.1.ok = true) ∨ t.length + ((xs.map (·.2)).flatten).length < 200) →
    ∃ e, run d (xs.map fun p => (p.1, .cat p.2 (-1))) = .ok e ∧ Inv e ∧ Shows e ⟨t ++ (xs.map (·.2)).flatten, false⟩
  | [], d, t, h, hc, _, _, _ => ⟨d, rfl, h, by simpa using hc⟩
  | (m, x) :: xs, d, t, h, hc, hx, hl, hm => by
    simp only [List.map_cons, List.flatten_cons, List.length_append] at hl hm
    obtain ⟨e, c', r, h1, h2, h3, h4⟩ := step_does h hc m (o := .cat x (-1)) ⟨hx (m, x) (by simp), by omega⟩
    have hc' : c' = ⟨t ++ x, false⟩ := by
      simp only [Does] at h4
      rw [if_pos (by decide)] at h4
      cases h4 with
      | dead hd => cases hd
      | long _ hh => simp only at hh; omega
      | ok => rfl
      | failed _ _ hh hmm =>
        simp only at hh
        rcases hm with hm | hm
        · have := hm (m, x) (by simp)
          simp only at this
          rw [this] at hmm
          cases hmm
        · omega
    subst hc'
    obtain ⟨e', g1, g2, g3⟩ := cat_run (xs := xs) h2 h3 (fun p hp => hx p (by simp [hp])) (by simp only [List.length_append]; omega) (by
      rcases hm with hm | hm
      · exact .inl fun p hp => hm p (by simp [hp])
      · exact .inr (by simp only [List.length_append]; omega))
    refine ⟨e', by simp only [List.map_cons, run, h1]; exact g1, g2, by simpa using g3⟩

/-- **C82.**  Strings that are appended one after the other give their concatenation, if there is memory and it is shorter than `INT_MAX`; if it is shorter
than 200 bytes, also when there is no memory at all. -/
theorem concat (junk : Nat → Nat) {xs : List (Mem × Str)} (hx : ∀ p ∈ xs, 0 ∉ p.2) (hl : ((xs.map (·.2)).flatten).length < 2147483647)
    (hm : (∀ p ∈ xs, p.1.ok = true) ∨ ((xs.map (·.2)).flatten).length < 200) :
    ∃ d, run (init junk) (xs.map fun p => (p.1, .cat p.2 (-1))) = .ok d ∧ Shows d ⟨(xs.map (·.2)).flatten, false⟩ := by
  obtain ⟨e, h1, -, h3⟩ := cat_run (d := init junk) (t := []) (init_ok junk).1 (init_ok junk).2 hx (by rw [List.length_nil]; omega) (by simpa using hm)
  exact ⟨e, h1, by simpa using h3⟩

example : ∃ d, run (init fun _ => 7) ([(no, b "ab"), (no, b "cd")].map fun p => (p.1, .cat p.2 (-1))) = .ok d ∧ Shows d ⟨b "abcd", false⟩ :=
  concat (fun _ => 7) (xs := [(no, b "ab"), (no, b "cd")]) (by decide) (by decide) (.inr (by decide))

theorem put_heap {d : Ds} {x : Str} : (putBlock d x).heap.isSome = d.heap.isSome := by
  unfold putBlock; cases h : d.heap <;> simp [h]

theorem endAt_heap {d e : Ds} {i : Int} (h : endAt d i = .ok e) : e.heap.isSome = d.heap.isSome := by
  unfold endAt at h
  split at h
  · cases h
  · split at h
    · cases h
    · cases h; exact put_heap

/-- **C82.**  While the text stays below 200 bytes, no call that sets or appends takes memory: none is left if the string is never freed. -/
theorem no_memory {d e : Ds} {t : Str} {m : Mem} {r : Option Str} (hd : d.heap = none) (hi : 200 ≤ d.capacity) :
    (∀ s : Str, s.length < 200 → step d m (.set s) = .ok (e, r) → e.heap = none) ∧
    (∀ s n, Shows d ⟨t, false⟩ → t.length + s.length < 200 → step d m (.cat s n) = .ok (e, r) → e.heap = none) := by
  constructor
  · intro s hs h
    simp only [step, set] at h
    rw [toInt_small (by omega), if_neg (by omega)] at h
    split at h
    · cases h
    · split at h
      · cases h
      · rename_i h1
        have := endAt_heap h1
        split at h
        · cases h
        · cases h
          rw [show ({ putBlock { d with dead := false } _ with length := _ } : Ds).heap = _ from rfl, put_heap] at this
          simpa [hd] using this
  · intro s n hsh hl h
    obtain ⟨-, -, h2, h3⟩ := hsh
    simp only at h2 h3
    have hmin : (if n < 0 then s.length else min n.toNat s.length) ≤ s.length := by split <;> omega
    simp only [step, cat] at h
    rw [if_neg (by simp [h3]), if_neg (by unfold INT_MAX; omega), if_neg (by unfold INT_MAX; omega), if_neg (by omega)] at h
    split at h
    · cases h
    · split at h
      · cases h
      · rename_i h1
        have := endAt_heap h1
        split at h
        · cases h
        · cases h
          rw [show ({ putBlock d _ with length := _ } : Ds).heap = _ from rfl, put_heap] at this
          simpa [hd] using this

/-- **C82.**  A string that died takes nothing any more, until it is set, freed or extracted: then it is as good as a new one. -/
theorem dead_stays {memory : Bool} {c c' : Client} {o : Op} {r : Option Str} (h : Does memory c o c' r) (hd : c.dead = true) :
    (c'.dead = true ∧ r = none ∧ (c'.text = c.text ∨ ∃ n, o = .trunc n)) ∨ (c'.dead = false ∧ ((∃ s, o = .set s) ∨ (∃ v, o = .setInt v) ∨ o = .free ∨ o = .extract)) := by
  cases o with
  | set s =>
    cases h with
    | ok => exact .inr ⟨rfl, .inl ⟨s, rfl⟩⟩
    | failed => exact .inl ⟨rfl, rfl, .inl rfl⟩
  | setInt v =>
    obtain ⟨t, -, h⟩ := h
    cases h with
    | ok => exact .inr ⟨rfl, .inr (.inl ⟨v, rfl⟩)⟩
    | failed => exact .inl ⟨rfl, rfl, .inl rfl⟩
  | cat s n =>
    cases h with
    | dead => exact .inl ⟨hd, rfl, .inl rfl⟩
    | long h => rw [hd] at h; cases h
    | ok h => rw [hd] at h; cases h
    | failed h => rw [hd] at h; cases h
  | catInt v =>
    obtain ⟨t, -, h⟩ := h
    cases h with
    | dead => exact .inl ⟨hd, rfl, .inl rfl⟩
    | long h => rw [hd] at h; cases h
    | ok h => rw [hd] at h; cases h
    | failed h => rw [hd] at h; cases h
  | trunc n => obtain ⟨rfl, rfl⟩ := h; exact .inl ⟨hd, rfl, .inr ⟨n, rfl⟩⟩
  | free => obtain ⟨rfl, -⟩ := h; exact .inr ⟨rfl, .inr (.inr (.inl rfl))⟩
  | extract => obtain ⟨rfl, -⟩ := h; exact .inr ⟨rfl, .inr (.inr (.inr rfl))⟩

theorem ncpy_length {s : Str} {n : Nat} : (ncpy s n).length = n := by
  unfold ncpy; simp; omega

/-- **C82, defect.**  If memory runs out in `dstr_init2` the string says that it has the capacity that was asked for, and has 200 bytes: setting a text
of more, which should make it alive, writes behind it. -/
theorem init2_failed_defect (junk : Nat → Nat) {m m2 : Mem} {cap : Int} {s : Str} (hm : m.ok = false) (h1 : 200 < s.length) (h2 : (s.length : Int) < cap)
    (h3 : cap ≤ 2147483647) : set (init2 junk m cap) m2 s = .error .overrun := by
  have hd : init2 junk m cap = { init junk with capacity := cap.toNat, dead := true } := by
    unfold init2 malloc
    have : (init junk).capacity = 200 := rfl
    simp only
    rw [if_pos (by rw [this]; omega), hm]
    rfl
  rw [hd]
  unfold set
  simp only
  rw [toInt_small (by omega), if_neg (by omega)]
  have : (block { init junk with capacity := cap.toNat, dead := false }).length = 200 := by simp [block, init, STATIC]
  unfold write
  rw [if_neg (by rw [ncpy_length, this]; omega)]

example : set (init2 (fun _ => 0) no 300) yes (List.replicate 201 65) = .error .overrun :=
  init2_failed_defect (fun _ => 0) rfl (by rw [List.length_replicate]; decide) (by rw [List.length_replicate]; decide) (by decide)

/-- **C82, defect.**  Setting a text of `INT_MAX` bytes or more writes behind the memory of the string. -/
theorem huge_defect {d : Ds} {c : Client} (h : Inv d) (_hc : Shows d c) {m : Mem} (hm : m.ok = true) {s : Str} (hl : 2147483647 ≤ s.length) :
    set d m s = .error .overrun := by
  have hhigh := h.high
  unfold set
  simp only
  have key : ∀ (e : Ds) (src : Str), (block e).length ≤ 2147483647 → (INT_MAX < s.length ∨ toInt s.length = 2147483647) →
      (match write (block e) 0 (ncpy src s.length) with
        | .error x => (.error x : Out (Ds × Option Str))
        | .ok b =>
          match endAt { putBlock e b with length := (toInt s.length).toNat } (toInt s.length) with
          | .error x => .error x
          | .ok d =>
            match cstr (block d) with
            | .error x => .error x
            | .ok r => .ok (d, some r)) = .error .overrun := by
    intro e src hb hh
    by_cases hw : s.length ≤ (block e).length
    · have hL : s.length = 2147483647 := by omega
      have ht : toInt s.length = 2147483647 := by rw [hL]; rfl
      unfold write
      rw [if_pos (by rw [ncpy_length]; omega)]
      simp only
      unfold endAt
      rw [ht, if_neg (by decide), block_len, block_put]
      unfold write
      rw [if_neg (by
        simp only [List.length_append, List.length_take, List.length_drop, ncpy_length, List.length_cons, List.length_nil]
        omega)]
    · unfold write
      rw [if_neg (by rw [ncpy_length]; omega)]
  have hor : INT_MAX < s.length ∨ toInt s.length = 2147483647 := by
    by_cases hL : s.length = 2147483647
    · right; rw [hL]; rfl
    · left; unfold INT_MAX; omega
  by_cases hg : toInt s.length ≥ d.capacity
  · rw [if_pos hg]
    cases hmm : malloc m (grown (toInt s.length).toNat) with
    | none => rw [malloc_none hmm] at hm; cases hm
    | some x =>
      simp only
      apply key _ _ ?_ hor
      have := malloc_length hmm
      have hle : grown (toInt s.length).toNat ≤ 2147483647 := by
        unfold grown INT_MAX; split <;> omega
      simp only [block]
      omega
  · rw [if_neg hg]
    apply key _ _ ?_ hor
    have := h.size
    simp only [block] at this ⊢
    omega

/-- states that meet its hypotheses are those of `dstring`; here the first one -/
example {m : Mem} (hm : m.ok = true) {s : Str} (hl : 2147483647 ≤ s.length) : set (init fun _ => 0) m s = .error .overrun :=
  huge_defect (init_ok _).1 (init_ok _).2 hm hl

end Verif.Dstr
