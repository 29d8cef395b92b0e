import Verif.ProcSamp.Net

/-!
# C81: procnetdev and procnetdev2
-/

namespace Verif.ProcSamp

/-! ### procnetdev -/

/-- the state after a good `config` -/
structure NdReady (q : Nd) (xs : List Str) (s : MSet) : Prop where
  tab : q.tab = xs
  is : q.set = some s
  names : s.names = baseNames ++ (ndMetrics xs).map fun p => p.2 ++ 35 :: p.1
  size : s.vals.length = 3 + 16 * xs.length

theorem nd_config {a : Args} {f : Str} {xs : List Str} (ha : Good a f) (hi : a.ifaces = some (commas xs)) (hx : Names 19 xs) (h0 : xs ≠ [])
    (h20 : xs.length ≤ 20) :
    ndConfig ⟨[], .null, none⟩ a =
      .ok (0, ⟨xs, .live, some (newSet a.componentId (baseNames ++ (ndMetrics xs).map fun p => p.2 ++ 35 :: p.1))⟩) := by
  obtain ⟨g1, g2, g3, g4⟩ := ha
  unfold ndConfig
  simp only [g1, Bool.false_eq_true, if_false, Option.isSome_none, hi]
  rw [tokens_commas fun x hm => ⟨(hx.2 x hm).1.1, (hx.2 x hm).2.1⟩, addIfaces_ok (by simpa using h20) fun t ht => (hx.2 t ht).2.2]
  simp only [List.nil_append, h0, if_false, g2, Bool.not_true, Bool.false_eq_true, g4, Option.isNone_some]
  rw [ndNames_ok (nd_nodup hx.1)]
  simp [g3]

theorem nd_ready {a : Args} {xs : List Str} :
    NdReady ⟨xs, .live, some (newSet a.componentId (baseNames ++ (ndMetrics xs).map fun p => p.2 ++ 35 :: p.1))⟩ xs
      (newSet a.componentId (baseNames ++ (ndMetrics xs).map fun p => p.2 ++ 35 :: p.1)) :=
  ⟨rfl, rfl, rfl, by simp [newSet, baseNames, ndMetrics_length]; omega⟩

/-- the lines of interfaces: different names that fit in the buffer -/
def Fits (k : Nat) (rows : List (Str × List Nat)) : Prop := (rows.map (·.1)).Nodup ∧ ∀ p ∈ rows, p.1.length ≤ k

theorem rows16 {f : Str} {rows : List (Str × List Nat)} (h : NetSays f rows) : ∀ p ∈ rows, p.2.length = 16 := by
  obtain ⟨t1, t2, ls, -, -, -, h⟩ := h
  induction h with
  | nil => simp
  | cons h1 _ ih =>
    intro p hp
    rcases List.mem_cons.1 hp with rfl | hp
    · obtain ⟨_, _, _, _, _, _, _, h, _⟩ := h1; exact h
    · exact ih p hp

theorem nd_step {q : Nd} {xs : List Str} {s : MSet} (h : NdReady q xs s) {f : Str} {rows : List (Str × List Nat)} (hf : NetSays f rows)
    (hr : Fits 19 rows) :
    ndSample q f = .ok (0, { q with set := some { s with vals := stored xs s.vals rows, consistent := true } }) := by
  obtain ⟨ls, e, hls⟩ := net_lines hf
  unfold ndSample
  rw [h.is]
  simp only
  rw [e, h.tab, ndLoop_ok hls hr.2 h.size (by simpa using filter_count hr.1)]

theorem ndready_step {q : Nd} {xs : List Str} {s : MSet} (h : NdReady q xs s) {f : Str} {rows : List (Str × List Nat)} (hf : NetSays f rows) :
    NdReady { q with set := some { s with vals := stored xs s.vals rows, consistent := true } } xs { s with vals := stored xs s.vals rows, consistent := true } :=
  ⟨h.tab, rfl, h.names, by simp only; rw [stored_length (rows16 hf) h.size, h.size]⟩

theorem ndready_after : ∀ {fs : List Str} {q : Nd} {xs : List Str} {s : MSet}, NdReady q xs s → (∀ f ∈ fs, ∃ rows, NetSays f rows ∧ Fits 19 rows) →
    ∃ r t, after ndSample q fs = .ok r ∧ NdReady r xs t
  | [], q, xs, s, h, _ => ⟨q, s, rfl, h⟩
  | f :: fs, q, xs, s, h, hf => by
    obtain ⟨rows, h1, h2⟩ := hf f (by simp)
    obtain ⟨r, t, h3, h4⟩ := ndready_after (fs := fs) (ndready_step h h1) fun g hg => hf g (by simp [hg])
    refine ⟨r, t, ?_, h4⟩
    rw [after, nd_step h h1 h2]
    exact h3

/-- the metric of a counter of an interface -/
def metricOf (counter iface : Str) : Str := counter ++ 35 :: iface

theorem nd_name {q : Nd} {xs : List Str} {s : MSet} (h : NdReady q xs s) {x c : Str} {k : Nat} (hx : x ∈ xs) (hc : counters[k]? = some c) :
    s.names[3 + 16 * xs.idxOf x + k]? = some (metricOf c x) := by
  rw [h.names, List.getElem?_append_right (by simp [baseNames]; omega)]
  have := ndMetrics_get (idxOf_get hx) (by rw [counters_eq]; exact hc)
  rw [List.getElem?_map, show 3 + 16 * xs.idxOf x + k - baseNames.length = 16 * xs.idxOf x + k by simp [baseNames]; omega, this]
  rfl

/-- **C81.**  procnetdev: configured with up to 20 different names, it makes a set with one metric for each counter of each name.  At each
sample, whatever the order of the lines in the file and whatever other interfaces it has, the metrics of the interfaces that are in the file get
the 16 numbers of their lines, and those of the others keep what they had. -/
theorem nd_faithful {a : Args} {f0 : Str} {xs : List Str} (ha : Good a f0) (hi : a.ifaces = some (commas xs)) (hx : Names 19 xs) (h0 : xs ≠ [])
    (h20 : xs.length ≤ 20) :
    ∃ q, ndConfig ⟨[], .null, none⟩ a = .ok (0, q) ∧
      ∀ fs : List Str, (∀ f ∈ fs, ∃ rows, NetSays f rows ∧ Fits 19 rows) →
        ∃ r s, after ndSample q fs = .ok r ∧ r.set = some s ∧ s.names.Nodup ∧ s.names.length = s.vals.length ∧
          (∀ n, n ∈ s.names ↔ OfBase n ∨ ∃ c ∈ counters, ∃ x ∈ xs, n = metricOf c x) ∧
          ∀ f rows, NetSays f rows → Fits 19 rows → ∃ s', ndSample r f = .ok (0, { r with set := some s' }) ∧ s'.names = s.names ∧ s'.consistent = true ∧
            (∀ x ∈ xs, ∀ vs, (x, vs) ∈ rows → ∀ (k : Nat) c v, counters[k]? = some c → vs[k]? = some v → Holds s' (metricOf c x) v) ∧
            (∀ x ∈ xs, x ∉ rows.map (·.1) → ∀ c ∈ counters, ∀ v, Holds s (metricOf c x) v → Holds s' (metricOf c x) v) := by
  refine ⟨_, nd_config ha hi hx h0 h20, ?_⟩
  intro fs hfs
  obtain ⟨r, s, e, h⟩ := ndready_after nd_ready hfs
  have hnd : s.names.Nodup := by rw [h.names]; exact nd_nodup hx.1
  refine ⟨r, s, e, h.is, hnd, by rw [h.names, h.size]; simp [baseNames, ndMetrics_length]; omega, ?_, ?_⟩
  · intro n
    rw [h.names, List.mem_append, ← ofBase_iff]
    refine or_congr Iff.rfl ?_
    simp only [List.mem_map]
    constructor
    · rintro ⟨p, hp, rfl⟩
      have := ndMetrics_mem.1 hp
      rw [counters_eq] at this
      exact ⟨p.2, this.2, p.1, this.1, rfl⟩
    · rintro ⟨c, hc, x, hx, rfl⟩
      exact ⟨(x, c), ndMetrics_mem.2 ⟨hx, by rw [counters_eq]; exact hc⟩, rfl⟩
  · intro f rows hf hr
    refine ⟨{ s with vals := stored xs s.vals rows, consistent := true }, nd_step h hf hr, rfl, rfl, ?_, ?_⟩
    · intro x hx vs hm k c v hc hv
      have hk : k < 16 := (List.getElem?_eq_some_iff.1 hc).1
      refine ⟨3 + 16 * xs.idxOf x + k, nd_name h hx hc, ?_⟩
      simp only
      rw [stored_in (rows16 hf) h.size hr.1 hm hx hk]
      exact hv
    · intro x hx hm c hc v ⟨i, h1, h2⟩
      obtain ⟨k, hk⟩ := List.mem_iff_getElem?.1 hc
      have hk16 : k < 16 := (List.getElem?_eq_some_iff.1 hk).1
      have hi : i = 3 + 16 * xs.idxOf x + k := by
        have hn := nd_name h hx hk
        exact (List.nodup_iff_getElem?_ne_getElem?.1 hnd |> fun H => by
          rcases Nat.lt_trichotomy i (3 + 16 * xs.idxOf x + k) with hlt | heq | hlt
          · exact absurd (h1.trans hn.symm) (H i _ hlt (List.getElem?_eq_some_iff.1 hn).1)
          · exact heq
          · exact absurd (hn.trans h1.symm) (H _ i hlt (List.getElem?_eq_some_iff.1 h1).1))
      refine ⟨i, h1, ?_⟩
      simp only
      rw [stored_other (rows16 hf) h.size (by
        intro p hp hpt
        have hne : p.1 ≠ x := by
          intro e
          exact hm (List.mem_map.2 ⟨p, hp, e⟩)
        have := idxOf_ne hpt hx hne
        omega)]
      exact h2

/-- **C81, defect.**  Without the attribute, `config` of procnetdev returns 0 and no set is made. -/
theorem nd_missing_defect {a : Args} (h : a.hasSet = false) (hi : a.ifaces = none) :
    ndConfig ⟨[], .null, none⟩ a = .ok (0, ⟨[], .null, none⟩) := by
  unfold ndConfig
  simp only [h, Bool.false_eq_true, if_false, Option.isSome_none, hi]
  rfl

/-- **C81, defect.**  With more names than there is room for (20 for procnetdev, 31 for procnetdev2) `config` returns 0, no set is made, and the
table of names stays full. -/
theorem many_names_defect {a : Args} {xs : List Str} (h : a.hasSet = false) (hi : a.ifaces = some (commas xs)) (hx : Names 19 xs) :
    (20 < xs.length → ∃ tab, ndConfig ⟨[], .null, none⟩ a = .ok (0, ⟨tab, .null, none⟩) ∧ tab.length = 20) ∧
    (31 < xs.length → ∃ tab, nd2Config ⟨[], .null, none⟩ a = .ok (0, ⟨tab, .null, none⟩) ∧ tab.length = 31) := by
  constructor
  · intro h20
    obtain ⟨tab, e, hl⟩ := addIfaces_full (ts := xs) (tab := []) (room := 20) (by simp) (by simpa using h20)
    refine ⟨tab, ?_, hl⟩
    unfold ndConfig
    simp only [h, Bool.false_eq_true, if_false, Option.isSome_none, hi]
    rw [tokens_commas fun x hm => ⟨(hx.2 x hm).1.1, (hx.2 x hm).2.1⟩, e]
    rfl
  · intro h31
    obtain ⟨tab, e, hl⟩ := addIfaces_full (ts := xs) (tab := []) (room := 31) (by simp) (by simpa using h31)
    refine ⟨tab, ?_, hl⟩
    unfold nd2Config
    simp only [h, Bool.false_eq_true, if_false, ne_eq, not_true, hi]
    rw [tokens_commas fun x hm => ⟨(hx.2 x hm).1.1, (hx.2 x hm).2.1⟩, e]
    rfl

/-- **C81, defect.**  The names of a `config` that failed stay: after one with too many of them, every later one that names an interface returns 0
and makes no set either. -/
theorem full_table_defect {a : Args} {xs tab : List Str} (h : a.hasSet = false) (hi : a.ifaces = some (commas xs)) (hx : Names 19 xs) (h0 : xs ≠ []) :
    (tab.length = 20 → ndConfig ⟨tab, .null, none⟩ a = .ok (0, ⟨tab, .null, none⟩)) ∧
    (tab.length = 31 → nd2Config ⟨tab, .null, none⟩ a = .ok (0, ⟨tab, .null, none⟩)) := by
  have key : ∀ room, tab.length = room → addIfaces room tab xs = (tab, false) := by
    intro room hr
    cases xs with
    | nil => exact absurd rfl h0
    | cons x xs => rw [addIfaces, if_pos (by omega)]
  constructor
  · intro hl
    unfold ndConfig
    simp only [h, Bool.false_eq_true, if_false, Option.isSome_none, hi]
    rw [tokens_commas fun x hm => ⟨(hx.2 x hm).1.1, (hx.2 x hm).2.1⟩, key 20 hl]
    rfl
  · intro hl
    unfold nd2Config
    simp only [h, Bool.false_eq_true, if_false, ne_eq, not_true, hi]
    rw [tokens_commas fun x hm => ⟨(hx.2 x hm).1.1, (hx.2 x hm).2.1⟩, key 31 hl]
    rfl

/-- **C81, defect.**  If the file cannot be opened, or the set cannot be made, `config` of procnetdev leaves an address that the next `config` that
fails frees again. -/
theorem nd_twice_defect {a b : Args} {xs : List Str} (h : a.hasSet = false) (hc : a.complete = true) (hi : a.ifaces = some (commas xs)) (hx : Names 19 xs)
    (h0 : xs ≠ []) (h20 : xs.length ≤ 20) (hf : a.file = none) (hb : b.hasSet = false) (hbi : b.ifaces = none) :
    ∃ q, ndConfig ⟨[], .null, none⟩ a = .ok (2, q) ∧ ndConfig q b = .error .freed := by
  refine ⟨⟨xs, .dangling, none⟩, ?_, ?_⟩
  · unfold ndConfig
    simp only [h, Bool.false_eq_true, if_false, Option.isSome_none, hi]
    rw [tokens_commas fun x hm => ⟨(hx.2 x hm).1.1, (hx.2 x hm).2.1⟩, addIfaces_ok (by simpa using h20) fun t ht => (hx.2 t ht).2.2]
    simp only [List.nil_append, h0, if_false, hc, Bool.not_true, Bool.false_eq_true, hf, Option.isNone_none, if_true]
    rfl
  · unfold ndConfig
    simp only [hb, Bool.false_eq_true, if_false, Option.isSome_none, hbi]
    rfl

/-- **C81, defect.**  A name of 20 bytes or more in the file overruns the buffer of procnetdev, one of 16 or more that of procnetdev2; Linux allows 15. -/
theorem long_name_defect {tab : List Str} {l : Str} {p : Str × List Nat} {ls : List Str} {vals : List Nat} (h : NetRow l p) (ht : tab ≠ []) :
    (20 ≤ p.1.length → ndLoop tab 0 vals (l.takeWhile (· ≠ 0) :: ls) = .error .overrun) ∧
    (16 ≤ p.1.length → nd2Recs tab (l.takeWhile (· ≠ 0) :: ls) = .error .overrun) := by
  constructor
  · intro hl
    rw [ndLoop, if_neg (by
      intro e
      exact ht (List.length_eq_zero_iff.1 e.symm)), ndLine_long h hl]
  · intro hl
    rw [nd2Recs, ndLine_long h hl]

/-! ### procnetdev2 -/

theorem nd2_config {a : Args} {f : Str} {xs : Option (List Str)} (ha : Good a f) (hi : a.ifaces = xs.map commas)
    (hx : ∀ l, xs = some l → Names 19 l ∧ l ≠ [] ∧ l.length ≤ 31) :
    nd2Config ⟨[], .null, none⟩ a = .ok (0, ⟨xs.getD [], .live, some ⟨[], 32, false⟩⟩) := by
  obtain ⟨g1, g2, g3, g4⟩ := ha
  have hcr : ∀ tab, nd2Create tab a = .ok (0, ⟨tab, .live, some ⟨[], 32, false⟩⟩) := by
    intro tab
    unfold nd2Create
    simp [g2, g3, g4]
  unfold nd2Config
  simp only [g1, Bool.false_eq_true, if_false, ne_eq, not_true, hi]
  cases xs with
  | none => exact hcr []
  | some l =>
    obtain ⟨h1, h2, h3⟩ := hx l rfl
    simp only [Option.map_some, Option.getD_some]
    rw [tokens_commas fun x hm => ⟨(h1.2 x hm).1.1, (h1.2 x hm).2.1⟩, addIfaces_ok (by simpa using h3) fun t ht => (h1.2 t ht).2.2]
    simp only [List.nil_append, h2, if_false]
    exact hcr l

/-- **C81.**  procnetdev2: configured with up to 31 different names, or with none for all interfaces, a sample gives a list with one record for each
line of an interface that was asked for, in the order of the file, with its 16 numbers: for any number of interfaces, as the set is made larger
until all have room (the file is the same in the meantime). -/
theorem nd2_faithful {a : Args} {f0 : Str} {xs : Option (List Str)} (ha : Good a f0) (hi : a.ifaces = xs.map commas)
    (hx : ∀ l, xs = some l → Names 19 l ∧ l ≠ [] ∧ l.length ≤ 31) :
    ∃ q, nd2Config ⟨[], .null, none⟩ a = .ok (0, q) ∧
      ∀ f rows, NetSays f rows → (∀ p ∈ rows, p.1.length ≤ 15) → ∀ n, rows.length < n →
        ∃ s, nd2Sample q (List.replicate n f) = .ok (0, some s) ∧ s.consistent = true ∧
          s.recs = rows.filter fun p => decide (∀ l, xs = some l → p.1 ∈ l) := by
  refine ⟨_, nd2_config ha hi hx, ?_⟩
  intro f rows hf h15 n hn
  obtain ⟨ls, e, hls⟩ := net_lines hf
  have hrec := nd2Recs_ok (tab := xs.getD []) hls h15
  rw [← e] at hrec
  have heq : (rows.filter fun p => decide (xs.getD [] = [] ∨ p.1 ∈ xs.getD [])) = rows.filter fun p => decide (∀ l, xs = some l → p.1 ∈ l) := by
    apply List.filter_congr
    intro p _
    cases xs with
    | none => simp
    | some l =>
      have := (hx l rfl).2.1
      simp [this]
  have key : ∀ n room, rows.length < n + room → 0 < n → ∃ s, nd2Read (xs.getD []) room (List.replicate n f) = .ok (some s) ∧ s.consistent = true ∧
      s.recs = rows.filter fun p => decide (∀ l, xs = some l → p.1 ∈ l) := by
    intro n
    induction n with
    | zero => intro room _ h; omega
    | succ n ih =>
      intro room h1 _
      rw [List.replicate_succ, nd2Read, hrec]
      simp only
      have hle : (rows.filter fun p => decide (xs.getD [] = [] ∨ p.1 ∈ xs.getD [])).length ≤ rows.length := List.length_filter_le _ _
      by_cases hr : (rows.filter fun p => decide (xs.getD [] = [] ∨ p.1 ∈ xs.getD [])).length ≤ room
      · rw [if_pos hr]
        exact ⟨_, rfl, rfl, heq⟩
      · rw [if_neg hr]
        exact ih (room + 2) (by omega) (by omega)
  obtain ⟨s, h1, h2, h3⟩ := key n 32 (by omega) (by omega)
  refine ⟨s, ?_, h2, h3⟩
  unfold nd2Sample
  simp only
  rw [h1]

/-- **C81.**  If the file changes while the set is made larger, the list is still that of one of the readings, whole. -/
theorem nd2_whole {q : Nd2} {s0 s : LSet} (hb : q.base = .live) (hs : q.set = some s0) {fs : List Str}
    (hf : ∀ f ∈ fs, ∃ rows, NetSays f rows ∧ ∀ p ∈ rows, p.1.length ≤ 15) {rc : Int} (h : nd2Sample q fs = .ok (rc, some s)) :
    rc = 0 ∧ s.consistent = true ∧ ∃ f ∈ fs, ∃ rows, NetSays f rows ∧ s.recs = rows.filter fun p => decide (q.tab = [] ∨ p.1 ∈ q.tab) := by
  have key : ∀ (fs : List Str) (room : Nat), (∀ f ∈ fs, ∃ rows, NetSays f rows ∧ ∀ p ∈ rows, p.1.length ≤ 15) → nd2Read q.tab room fs = .ok (some s) →
      s.consistent = true ∧ ∃ f ∈ fs, ∃ rows, NetSays f rows ∧ s.recs = rows.filter fun p => decide (q.tab = [] ∨ p.1 ∈ q.tab) := by
    intro fs
    induction fs with
    | nil => intro room _ h; cases h
    | cons f fs ih =>
      intro room hf h
      obtain ⟨rows, h1, h2⟩ := hf f (by simp)
      obtain ⟨ls, e, hls⟩ := net_lines h1
      have hrec := nd2Recs_ok (tab := q.tab) hls h2
      rw [← e] at hrec
      rw [nd2Read, hrec] at h
      simp only at h
      by_cases hr : (rows.filter fun p => decide (q.tab = [] ∨ p.1 ∈ q.tab)).length ≤ room
      · rw [if_pos hr] at h
        cases h
        exact ⟨rfl, f, by simp, rows, h1, rfl⟩
      · rw [if_neg hr] at h
        obtain ⟨h3, g, hg, h4⟩ := ih (room + 2) (fun g hg => hf g (by simp [hg])) h
        exact ⟨h3, g, by simp [hg], h4⟩
  unfold nd2Sample at h
  rw [hb, hs] at h
  simp only at h
  cases hr : nd2Read q.tab s0.room fs with
  | error x => rw [hr] at h; cases h
  | ok t =>
    rw [hr] at h
    cases h
    have := key fs s0.room hf hr
    exact ⟨rfl, this.1, this.2⟩

/-- **C81, defect.**  After a `config` of procnetdev2 that failed because of the file or of the set, `config` is refused for ever, and a sample uses memory
that was freed. -/
theorem nd2_failed_defect {a b : Args} (h1 : a.hasSet = false) (h2 : a.complete = true) (h3 : a.ifaces = none) (h4 : a.file = none ∨ a.setErr ≠ 0) (fs : List Str) :
    ∃ rc q, nd2Config ⟨[], .null, none⟩ a = .ok (rc, q) ∧ rc ≠ 0 ∧ nd2Config q b = .ok (22, q) ∧ nd2Sample q fs = .error .freed := by
  have hb : ∀ q : Nd2, q.base = .dangling → nd2Config q b = .ok (22, q) := by
    intro q hq
    unfold nd2Config
    rw [hq]
    simp only [ne_eq, reduceCtorEq, not_false_eq_true, if_true]
    split <;> rfl
  unfold nd2Config
  simp only [h1, Bool.false_eq_true, if_false, ne_eq, not_true, h3]
  unfold nd2Create
  simp only [h2, Bool.not_true, Bool.false_eq_true, if_false]
  by_cases hf : a.file.isNone = true
  · rw [if_pos hf]
    exact ⟨2, ⟨[], .dangling, none⟩, rfl, by decide, hb _ rfl, rfl⟩
  · rw [if_neg hf]
    have : a.setErr ≠ 0 := by
      rcases h4 with h | h
      · rw [h] at hf; exact absurd rfl hf
      · exact h
    rw [if_pos this]
    exact ⟨a.setErr, ⟨[], .dangling, none⟩, rfl, this, hb _ rfl, rfl⟩

end Verif.ProcSamp
