import Verif.ProcSamp.Faults
import Mathlib.Data.List.Nodup
import Mathlib.Data.List.ProdSigma
import Mathlib.Data.List.Perm.Subperm

/-! Proofs for procnetdev and procnetdev2. -/

namespace Verif.ProcSamp

/-! ### A line -/

theorem numbers_of {r : Str} {vs : List Nat} (h : Numbers r vs) : numbers vs.length ((r ++ [10]).takeWhile (· ≠ 0)) = vs := by
  induction h with
  | nil => rfl
  | @cons b d r v vs hb _ hd hv hr _ ih =>
    have e : (b ++ d ++ r ++ [10]).takeWhile (· ≠ 0) = b ++ d ++ (r ++ [10]).takeWhile (· ≠ 0) := by
      simp only [List.append_assoc]
      rw [takeWhile_append_all (blank_no0 hb), takeWhile_append_all (decimal_no0 hd)]
    rw [e, List.length_cons, numbers, number_of hb hd hv (nodigit_take (nodigit_append hr (by simp [NoDigit])) _)]
    simp only
    rw [ih]

theorem number_blank {s : Str} : number (32 :: s) = number s := by
  unfold number
  rw [show (32 :: s).dropWhile space = s.dropWhile space from rfl]

theorem numbers_blank {k : Nat} {s : Str} : numbers (k + 1) (32 :: s) = numbers (k + 1) s := by
  rw [numbers, numbers, number_blank]

theorem uncolon_of : ∀ {a s : Str}, 58 ∉ a → uncolon (a ++ 58 :: s) = a ++ 32 :: s
  | [], s, _ => by simp [uncolon]
  | c :: a, s, h => by
    simp only [List.mem_cons, not_or] at h
    rw [List.cons_append, uncolon, if_neg (Ne.symm h.1), uncolon_of h.2]
    rfl

theorem netRow_parts {l : Str} {p : Str × List Nat} (h : NetRow l p) :
    ∃ a t, uncolon (l.takeWhile (· ≠ 0)) = a ++ p.1 ++ 32 :: t ∧ Blank a ∧ Word p.1 ∧ numbers 16 t = p.2 := by
  obtain ⟨a, r, rfl, ha, hw, hc, hn, hl, -⟩ := h
  refine ⟨a, (r ++ [10]).takeWhile (· ≠ 0), ?_, ha, hw, by rw [← hl]; exact numbers_of hn⟩
  have e : (a ++ p.1 ++ [58] ++ r ++ [10]).takeWhile (· ≠ 0) = a ++ p.1 ++ 58 :: (r ++ [10]).takeWhile (· ≠ 0) := by
    simp only [List.append_assoc]
    rw [takeWhile_append_all (blank_no0 ha), takeWhile_append_all (word_no0 hw)]
    rfl
  rw [e, uncolon_of]
  simp only [List.mem_append, not_or]
  refine ⟨fun hm => ?_, hc⟩
  rcases ha 58 hm with h | h <;> omega

theorem ndLine_row {room : Nat} {l : Str} {p : Str × List Nat} (h : NetRow l p) (hr : p.1.length < room) :
    ndLine room (l.takeWhile (· ≠ 0)) = .ok (some p) := by
  have h16 : p.2.length = 16 := by obtain ⟨_, _, _, _, _, _, _, h, _⟩ := h; exact h
  obtain ⟨a, t, e, ha, hw, hn⟩ := netRow_parts h
  unfold ndLine
  rw [e, word_of ha hw (by intro c hc; simp at hc; subst hc; rfl)]
  simp only
  rw [if_neg (by omega), show numbers 16 (32 :: t) = numbers 16 t from numbers_blank, hn, if_pos h16]

theorem ndLine_long {room : Nat} {l : Str} {p : Str × List Nat} (h : NetRow l p) (hr : room ≤ p.1.length) :
    ndLine room (l.takeWhile (· ≠ 0)) = .error .overrun := by
  obtain ⟨a, t, e, ha, hw, hn⟩ := netRow_parts h
  unfold ndLine
  rw [e, word_of ha hw (by intro c hc; simp at hc; subst hc; rfl)]
  simp only
  rw [if_pos hr]

theorem numbers_no10 {r : Str} {vs : List Nat} (h : Numbers r vs) : 10 ∉ r := by
  induction h with
  | nil _ h => exact h
  | cons hb _ hd _ _ _ ih =>
    simp only [List.mem_append, not_or]
    exact ⟨⟨blank_no10 hb, decimal_no10 hd⟩, ih⟩

theorem netRow_title {l : Str} {p : Str × List Nat} (h : NetRow l p) : Title l := by
  obtain ⟨a, r, e, ha, hw, -, hn, -, hl⟩ := h
  refine ⟨_, e, ?_, hl⟩
  simp only [List.mem_append, not_or]
  exact ⟨⟨⟨blank_no10 ha, word_no10 hw⟩, by decide⟩, numbers_no10 hn⟩

/-- the lines of a file after the titles, one for each row -/
theorem net_lines {f : Str} {rows : List (Str × List Nat)} (h : NetSays f rows) :
    ∃ ls, (lines f).drop 2 = ls.map (fun l => l.takeWhile (· ≠ 0)) ∧ List.Forall₂ NetRow ls rows := by
  obtain ⟨t1, t2, ls, rfl, h1, h2, h⟩ := h
  refine ⟨ls, ?_, h⟩
  rw [lines, List.append_assoc, pieces_title h1, pieces_title h2, pieces_titles (by
    intro l hl
    obtain ⟨p, -, hp⟩ := forall2_left h l hl
    exact netRow_title hp)]
  rfl

/-! ### The attribute -/

theorem tokens_word : ∀ {x acc s : Str}, 44 ∉ x → acc ++ x ≠ [] → tokens acc (x ++ 44 :: s) = (acc ++ x) :: tokens [] s
  | [], acc, s, _, h => by
    simp at h
    simp [tokens, h]
  | c :: x, acc, s, hc, h => by
    simp only [List.mem_cons, not_or] at hc
    rw [List.cons_append, tokens, if_neg (Ne.symm hc.1), tokens_word hc.2 (by simp)]
    simp

theorem tokens_last : ∀ {x acc : Str}, 44 ∉ x → acc ++ x ≠ [] → tokens acc x = [acc ++ x]
  | [], acc, _, h => by
    simp at h
    simp [tokens, h]
  | c :: x, acc, hc, h => by
    simp only [List.mem_cons, not_or] at hc
    rw [tokens, if_neg (Ne.symm hc.1), tokens_last hc.2 (by simp)]
    simp

theorem tokens_commas : ∀ {xs : List Str}, (∀ x ∈ xs, x ≠ [] ∧ 44 ∉ x) → tokens [] (commas xs) = xs
  | [], _ => rfl
  | [x], h => by
    have := h x (by simp)
    rw [show commas [x] = x by simp [commas, List.intercalate], tokens_last this.2 (by simpa using this.1)]
    rfl
  | x :: y :: xs, h => by
    have := h x (by simp)
    rw [show commas (x :: y :: xs) = x ++ 44 :: commas (y :: xs) by simp [commas, List.intercalate],
      tokens_word this.2 (by simpa using this.1), tokens_commas fun z hz => h z (by simp [hz])]
    rfl

theorem addIfaces_ok : ∀ {ts tab : List Str} {room : Nat}, tab.length + ts.length ≤ room → (∀ t ∈ ts, t.length ≤ 19) →
    addIfaces room tab ts = (tab ++ ts, true)
  | [], tab, room, _, _ => by simp [addIfaces]
  | t :: ts, tab, room, h, h2 => by
    simp only [List.length_cons] at h
    rw [addIfaces, if_neg (by omega), List.take_of_length_le (h2 t (by simp)), addIfaces_ok (by simp; omega) fun t ht => h2 t (by simp [ht])]
    simp

theorem addIfaces_full : ∀ {ts tab : List Str} {room : Nat}, tab.length ≤ room → room < tab.length + ts.length →
    ∃ tab', addIfaces room tab ts = (tab', false) ∧ tab'.length = room
  | [], tab, room, h1, h => by simp at h; omega
  | t :: ts, tab, room, h1, h => by
    simp only [List.length_cons] at h
    rw [addIfaces]
    by_cases hr : room ≤ tab.length
    · rw [if_pos hr]
      exact ⟨tab, rfl, by omega⟩
    · rw [if_neg hr]
      exact addIfaces_full (by simp; omega) (by simp; omega)

/-! ### The names of the metrics -/

theorem counters_eq : varNames = counters := by decide

theorem counters_no35 : ∀ v ∈ varNames, 35 ∉ v := by decide

theorem name_inj : ∀ {v v' i i' : Str}, 35 ∉ v → 35 ∉ v' → v ++ 35 :: i = v' ++ 35 :: i' → v = v' ∧ i = i'
  | [], [], _, _, _, _, e => by simpa using e
  | [], c :: v', _, _, _, h, e => by simp at e h; exact absurd e.1 h.1
  | c :: v, [], _, _, h, _, e => by simp at e h; exact absurd e.1.symm h.1
  | c :: v, c' :: v', _, _, h, h', e => by
    simp only [List.cons_append, List.cons.injEq] at e
    simp only [List.mem_cons, not_or] at h h'
    obtain ⟨h1, h2⟩ := name_inj h.2 h'.2 e.2
    exact ⟨by rw [e.1, h1], h2⟩

theorem ndNames_ok : ∀ {ps : List (Str × Str)} {hv : List Str}, (hv ++ ps.map fun p => p.2 ++ 35 :: p.1).Nodup →
    ndNames hv ps = some (hv ++ ps.map fun p => p.2 ++ 35 :: p.1)
  | [], hv, _ => by simp [ndNames]
  | p :: ps, hv, h => by
    have hp : p.2 ++ 35 :: p.1 ∉ hv := by
      intro hm
      rw [List.nodup_append] at h
      exact h.2.2 _ hm _ (by simp) rfl
    obtain ⟨i, v⟩ := p
    rw [ndNames, schemaAdd, if_neg hp]
    simp only
    rw [ndNames_ok (by simpa using h)]
    simp

theorem ndMetrics_mem {xs : List Str} {p : Str × Str} : p ∈ ndMetrics xs ↔ p.1 ∈ xs ∧ p.2 ∈ varNames := by
  obtain ⟨i, v⟩ := p
  simp only [ndMetrics, List.mem_flatMap, List.mem_map, Prod.mk.injEq]
  constructor
  · rintro ⟨a, ha, b, hb, rfl, rfl⟩; exact ⟨ha, hb⟩
  · rintro ⟨h1, h2⟩; exact ⟨i, h1, v, h2, rfl, rfl⟩

theorem ndMetrics_nodup {xs : List Str} (h : xs.Nodup) : (ndMetrics xs).Nodup :=
  List.Nodup.product h (show varNames.Nodup by decide)

theorem nd_nodup {xs : List Str} (h : xs.Nodup) : (baseNames ++ (ndMetrics xs).map fun p => p.2 ++ 35 :: p.1).Nodup := by
  rw [List.nodup_append]
  refine ⟨base_nodup, ?_, ?_⟩
  · refine List.Nodup.map_on ?_ (ndMetrics_nodup h)
    intro a ha b hb e
    have h1 := name_inj (counters_no35 _ (ndMetrics_mem.1 ha).2) (counters_no35 _ (ndMetrics_mem.1 hb).2) e
    exact Prod.ext h1.2 h1.1
  · intro a ha b hb e
    subst e
    obtain ⟨p, -, rfl⟩ := List.mem_map.1 hb
    have : ∀ n ∈ baseNames, 35 ∉ n := by decide
    exact this _ ha (by simp)

theorem ndMetrics_get : ∀ {xs : List Str} {j k : Nat} {x v : Str}, xs[j]? = some x → varNames[k]? = some v →
    (ndMetrics xs)[16 * j + k]? = some (x, v)
  | [], j, k, x, v, h, _ => by simp at h
  | y :: xs, 0, k, x, v, h, hv => by
    simp at h
    subst h
    have hk : k < 16 := (List.getElem?_eq_some_iff.1 hv).1
    rw [ndMetrics, List.flatMap_cons, List.getElem?_append_left (by simp [varNames]; omega)]
    simp [hv]
  | y :: xs, j + 1, k, x, v, h, hv => by
    simp at h
    rw [ndMetrics, List.flatMap_cons, List.getElem?_append_right (by simp [varNames]; omega)]
    have := ndMetrics_get h hv
    rw [ndMetrics] at this
    rw [← this]
    congr 1
    simp [varNames]
    omega

theorem ndMetrics_length {xs : List Str} : (ndMetrics xs).length = 16 * xs.length := by
  induction xs with
  | nil => rfl
  | cons x xs ih =>
    rw [ndMetrics] at ih ⊢
    rw [List.flatMap_cons, List.length_append, ih]
    simp [varNames]
    omega

/-! ### A sample of procnetdev -/

theorem putAll_ok : ∀ {vs vals : List Nat} {i : Nat}, i + vs.length ≤ vals.length → putAll vals i vs = .ok (over vals i vs)
  | [], vals, i, _ => by simp [putAll, over_nil]
  | v :: vs, vals, i, h => by
    simp only [List.length_cons] at h
    rw [putAll, put, if_pos (by omega)]
    simp only
    rw [putAll_ok (by simp; omega), over_cons (by omega)]

/-- what the rows leave -/
def stored (tab : List Str) (vals : List Nat) (rows : List (Str × List Nat)) : List Nat :=
  rows.foldl (fun vals p => if p.1 ∈ tab then over vals (3 + 16 * tab.idxOf p.1) p.2 else vals) vals

theorem stored_none {tab : List Str} {vals : List Nat} : ∀ {rows : List (Str × List Nat)}, (∀ p ∈ rows, p.1 ∉ tab) → stored tab vals rows = vals
  | [], _ => rfl
  | p :: rows, h => by
    rw [stored, List.foldl_cons, if_neg (h p (by simp))]
    exact stored_none fun p hp => h p (by simp [hp])

theorem idxOf_lt {tab : List Str} {w : Str} (h : w ∈ tab) : tab.idxOf w < tab.length := List.idxOf_lt_length_of_mem h

theorem ndLoop_done {tab : List Str} {vals : List Nat} : ∀ {ls : List Str}, ndLoop tab tab.length vals ls = .ok vals
  | [] => rfl
  | l :: ls => by
    rw [ndLoop, if_pos rfl]
    exact ndLoop_done

theorem ndLoop_ok {tab : List Str} : ∀ {ls : List Str} {rows : List (Str × List Nat)} {used : Nat} {vals : List Nat}, List.Forall₂ NetRow ls rows →
    (∀ p ∈ rows, p.1.length ≤ 19) → vals.length = 3 + 16 * tab.length → used + (rows.filter fun p => p.1 ∈ tab).length ≤ tab.length →
    ndLoop tab used vals (ls.map fun l => l.takeWhile (· ≠ 0)) = .ok (stored tab vals rows) := by
  intro ls rows used vals h
  induction h generalizing used vals with
  | nil => intro _ _ _; rfl
  | @cons l p ls rows h1 _ ih =>
    intro h19 hv hu
    by_cases hd : used = tab.length
    · subst hd
      rw [ndLoop_done, stored_none]
      intro q hq hm
      have : 0 < ((p :: rows).filter fun p => p.1 ∈ tab).length := List.length_pos_of_mem (List.mem_filter.2 ⟨hq, by simpa using hm⟩)
      omega
    · have h16 : p.2.length = 16 := by obtain ⟨_, _, _, _, _, _, _, h, _⟩ := h1; exact h
      rw [List.map_cons, ndLoop, if_neg hd, ndLine_row h1 (by have := h19 p (by simp); omega)]
      obtain ⟨w, vs⟩ := p
      simp only at h16 ⊢
      by_cases hm : w ∈ tab
      · have hi := idxOf_lt hm
        rw [if_pos hm, putAll_ok (by omega)]
        simp only
        rw [ih (fun q hq => h19 q (by simp [hq])) (by rw [over_length (by omega), hv]) (by
          rw [List.filter_cons, if_pos (by simpa using hm), List.length_cons] at hu
          omega)]
        simp [stored, hm]
      · rw [if_neg hm, ih (fun q hq => h19 q (by simp [hq])) hv (by
          rw [List.filter_cons, if_neg (by simpa using hm)] at hu
          exact hu)]
        simp [stored, hm]

theorem stored_length {tab : List Str} : ∀ {rows : List (Str × List Nat)} {vals : List Nat}, (∀ p ∈ rows, p.2.length = 16) →
    vals.length = 3 + 16 * tab.length → (stored tab vals rows).length = vals.length
  | [], vals, _, _ => rfl
  | p :: rows, vals, h, hv => by
    rw [stored, List.foldl_cons]
    by_cases hm : p.1 ∈ tab
    · have hi := idxOf_lt hm
      have h16 := h p (by simp)
      have hl := over_length (vals := vals) (vs := p.2) (i := 3 + 16 * tab.idxOf p.1) (by omega)
      rw [if_pos hm]
      have := stored_length (tab := tab) (rows := rows) (vals := over vals (3 + 16 * tab.idxOf p.1) p.2) (fun q hq => h q (by simp [hq])) (by omega)
      rw [stored] at this
      rw [this, hl]
    · rw [if_neg hm]
      exact stored_length (fun q hq => h q (by simp [hq])) hv

/-- a place outside the blocks of the rows -/
theorem stored_other {tab : List Str} {i : Nat} : ∀ {rows : List (Str × List Nat)} {vals : List Nat}, (∀ p ∈ rows, p.2.length = 16) →
    vals.length = 3 + 16 * tab.length →
    (∀ p ∈ rows, p.1 ∈ tab → i < 3 + 16 * tab.idxOf p.1 ∨ 3 + 16 * tab.idxOf p.1 + 16 ≤ i) → (stored tab vals rows)[i]? = vals[i]?
  | [], vals, _, _, _ => rfl
  | p :: rows, vals, h, hv, ho => by
    rw [stored, List.foldl_cons]
    by_cases hm : p.1 ∈ tab
    · have hi := idxOf_lt hm
      have h16 := h p (by simp)
      have hl := over_length (vals := vals) (vs := p.2) (i := 3 + 16 * tab.idxOf p.1) (by omega)
      rw [if_pos hm]
      have := stored_other (i := i) (rows := rows) (vals := over vals (3 + 16 * tab.idxOf p.1) p.2) (fun q hq => h q (by simp [hq])) (by omega)
        (fun q hq => ho q (by simp [hq]))
      rw [stored] at this
      rw [this]
      rcases ho p (by simp) hm with ho | ho
      · exact over_before (by omega) ho
      · exact over_after (by omega) (by omega)
    · rw [if_neg hm]
      exact stored_other (fun q hq => h q (by simp [hq])) hv (fun q hq => ho q (by simp [hq]))

theorem idxOf_get : ∀ {tab : List Str} {w : Str}, w ∈ tab → tab[tab.idxOf w]? = some w := by
  intro tab w h
  rw [List.getElem?_eq_getElem (idxOf_lt h)]
  simp

theorem idxOf_ne {tab : List Str} {w x : Str} (hw : w ∈ tab) (hx : x ∈ tab) (h : w ≠ x) : tab.idxOf w ≠ tab.idxOf x := by
  intro e
  have h1 := idxOf_get hw
  rw [e, idxOf_get hx] at h1
  exact h (by simpa using h1.symm)

/-- the block of a row -/
theorem stored_in {tab : List Str} : ∀ {rows : List (Str × List Nat)} {vals : List Nat} {w : Str} {vs : List Nat} {k : Nat},
    (∀ p ∈ rows, p.2.length = 16) → vals.length = 3 + 16 * tab.length → (rows.map (·.1)).Nodup → (w, vs) ∈ rows → w ∈ tab → k < 16 →
    (stored tab vals rows)[3 + 16 * tab.idxOf w + k]? = vs[k]?
  | [], vals, w, vs, k, _, _, _, hm, _, _ => by simp at hm
  | p :: rows, vals, w, vs, k, h, hv, hn, hm, hw, hk => by
    simp only [List.map_cons, List.nodup_cons] at hn
    rw [stored, List.foldl_cons]
    have h16 := h p (by simp)
    rcases List.mem_cons.1 hm with e | hm
    · subst e
      have hi := idxOf_lt hw
      simp only at h16
      rw [if_pos hw]
      have hl := over_length (vals := vals) (vs := vs) (i := 3 + 16 * tab.idxOf w) (by omega)
      have := stored_other (tab := tab) (i := 3 + 16 * tab.idxOf w + k) (rows := rows) (vals := over vals (3 + 16 * tab.idxOf w) vs)
        (fun q hq => h q (by simp [hq])) (by omega) (by
          intro q hq hqt
          have : q.1 ≠ w := by
            intro e
            exact hn.1 (List.mem_map.2 ⟨q, hq, e⟩)
          have := idxOf_ne hqt hw this
          omega)
      rw [stored] at this
      rw [this]
      exact over_in (by omega) (by omega)
    · have hne : p.1 ≠ w := by
        intro e
        exact hn.1 (List.mem_map.2 ⟨(w, vs), hm, e.symm⟩)
      by_cases hp : p.1 ∈ tab
      · have hi := idxOf_lt hp
        rw [if_pos hp]
        have hl := over_length (vals := vals) (vs := p.2) (i := 3 + 16 * tab.idxOf p.1) (by omega)
        exact stored_in (fun q hq => h q (by simp [hq])) (by omega) hn.2 hm hw hk
      · rw [if_neg hp]
        exact stored_in (fun q hq => h q (by simp [hq])) hv hn.2 hm hw hk

theorem filter_count {tab : List Str} {rows : List (Str × List Nat)} (h : (rows.map (·.1)).Nodup) : (rows.filter fun p => p.1 ∈ tab).length ≤ tab.length := by
  have h1 : ((rows.filter fun p => p.1 ∈ tab).map (·.1)).Nodup := by
    refine List.Nodup.sublist ?_ h
    exact (List.filter_sublist (l := rows)).map _
  have h2 : ((rows.filter fun p => p.1 ∈ tab).map (·.1)) ⊆ tab := by
    intro w hw
    obtain ⟨p, hp, rfl⟩ := List.mem_map.1 hw
    simpa using (List.mem_filter.1 hp).2
  have := (List.Nodup.subperm h1 h2).length_le
  simpa using this

/-! ### procnetdev2 -/

theorem nd2Recs_ok {tab : List Str} {ls : List Str} {rows : List (Str × List Nat)} (h : List.Forall₂ NetRow ls rows)
    (h15 : ∀ p ∈ rows, p.1.length ≤ 15) :
    nd2Recs tab (ls.map fun l => l.takeWhile (· ≠ 0)) = .ok (rows.filter fun p => tab = [] ∨ p.1 ∈ tab) := by
  induction h with
  | nil => rfl
  | @cons l p ls rows h1 _ ih =>
    have hp := h15 p (by simp)
    rw [List.map_cons, nd2Recs, ndLine_row h1 (by omega)]
    obtain ⟨w, vs⟩ := p
    simp only at hp ⊢
    rw [ih fun q hq => h15 q (by simp [hq])]
    simp only
    rw [List.take_of_length_le hp, List.filter_cons]
    simp only [decide_eq_true_eq]

end Verif.ProcSamp
