import Verif.Mval.Proofs
import Verif.Mval.Real

/-!
# C70: values are read as they were written
-/

namespace Verif.Mval

/-! ## What a call changes -/

/-- Calls go by the number of the metric. -/
theorem run_desc {be : Bool} {s s' : S} {i : Int} {c : Call} (h : c.run be s i = some s') :
    ∃ d, desc s i = some d := by
  cases hd : desc s i with
  | some d => exact ⟨d, rfl⟩
  | none =>
    cases c <;> simp [Call.run, metricSet, genSet, arraySet, genArraySet, arraySetRange, setStr, hd] at h

theorem mul_lt_room {w k n : Nat} (h : k < n) : w * k + w ≤ n * w := by
  have := Nat.mul_le_mul_left w h
  rw [Nat.mul_succ, Nat.mul_comm w n] at this
  exact this

/-- **C70**: a call for a metric writes only bytes of that metric, and nothing else but the
generation numbers changes.  On a big endian host this is not so for the functions that compare
with the count of the array. -/
theorem mval_footprint {be : Bool} {s s' : S} {i : Int} {c : Call} (h : c.run be s i = some s') {d : Desc}
    (hd : desc s i = some d) (hp : c.Proper d) (hz : d.Sized)
    (hbe : be = false ∨ d.array = false ∨ ∃ k v, c = .genElem k v) :
    ∃ m, Wrote s s' d m ∧ ∀ x, ¬ d.Has s x → m x = s.mem x := by
  have raw : be = false → rawCount be d = d.count := by intro e; simp [rawCount, cpuToLe, e]
  cases c with
  | scalar t v =>
    obtain ⟨ht, ha⟩ := hp
    simp only [Call.run, metricSet, hd, Option.map_some, Option.some.injEq] at h
    subst h
    refine ⟨_, wrote s d _, fun x hx => put_out ?_⟩
    have := hz t ht
    simp only [ha, Bool.false_eq_true, if_false, Nat.one_mul] at this
    simp only [Desc.Has, this] at hx
    omega
  | gen v =>
    simp only [Call.run, genSet, hd] at h
    cases ht : d.ty with
    | none => simp [ht] at h
    | some t =>
      simp only [ht] at h
      split at h
      · cases h
      · rename_i ha
        simp only [Option.some.injEq] at h
        subst h
        refine ⟨_, wrote s d _, fun x hx => put_out ?_⟩
        have := hz t ht
        simp only [ha, if_false, Nat.one_mul, Bool.false_eq_true] at this
        simp only [Desc.Has, this] at hx
        omega
  | elem k t v =>
    obtain ⟨ht, ha⟩ := hp
    have hb : be = false := by
      rcases hbe with h | h | ⟨_, _, h⟩
      · exact h
      · rw [ha] at h; cases h
      · cases h
    simp only [Call.run, arraySet, hd, raw hb] at h
    split at h
    · cases h
    · rename_i hk
      simp only [Option.some.injEq] at h
      subst h
      refine ⟨_, wrote s d _, fun x hx => put_out ?_⟩
      have := hz t ht
      simp only [ha, if_true] at this
      simp only [Desc.Has, this] at hx
      have := mul_lt_room (w := t.width) (k := k.toNat) (n := d.count) (by omega)
      omega
  | genElem k v =>
    simp only [Call.run, genArraySet, hd] at h
    split at h
    · cases h
    · rename_i hk
      cases ht : d.ty with
      | none => simp [ht] at h
      | some t =>
        simp only [ht] at h
        split at h
        · rename_i ha
          simp only [Option.some.injEq] at h
          subst h
          refine ⟨_, wrote s d _, fun x hx => put_out ?_⟩
          have := hz t ht
          simp only [ha, if_true] at this
          simp only [Desc.Has, this] at hx
          have := mul_lt_room (w := t.width) (k := k.toNat) (n := d.count) (by omega)
          omega
        · cases h
  | range src start count =>
    simp only [Call.run, arraySetRange, hd] at h
    cases ht : d.ty with
    | none => simp [ht] at h
    | some t =>
      simp only [ht] at h
      split at h
      · rename_i ha
        have hb : be = false := by
          rcases hbe with h | h | ⟨_, _, h⟩
          · exact h
          · rw [ha] at h; cases h
          · cases h
        simp only [Option.some.injEq, raw hb] at h
        subst h
        refine ⟨_, wrote s d _, fun x hx => ?_⟩
        have := hz t ht
        simp only [ha, if_true] at this
        simp only [Desc.Has, this] at hx
        by_cases hlt : start < min (start + count) d.count
        · apply putRange_out
          have e : start + (min (start + count) d.count - start) = min (start + count) d.count := by omega
          rw [e]
          have h1 : t.width * min (start + count) d.count ≤ d.count * t.width := by
            rw [Nat.mul_comm d.count]
            exact Nat.mul_le_mul_left _ (by omega)
          omega
        · have e : min (start + count) d.count - start = 0 := by omega
          rw [e]
          rfl
      · cases h
  | str l =>
    obtain ⟨ht, ha⟩ := hp
    have hb : be = false := by
      rcases hbe with h | h | ⟨_, _, h⟩
      · exact h
      · rw [ha] at h; cases h
      · cases h
    simp only [Call.run, setStr, hd, Option.map_some, Option.some.injEq, raw hb] at h
    subst h
    refine ⟨_, wrote s d _, fun x hx => write_out ?_⟩
    have := hz _ ht
    simp only [ha, if_true, Ty.width, Nat.mul_one] at this
    simp only [Desc.Has, this] at hx
    simp only [List.length_append, List.length_take, List.length_replicate]
    omega

theorem addrGet_cases (s : S) (d : Desc) :
    addrGet s d = addrSet s d ∨ (d.isData = true ∧ s.inTxn = true ∧ addrGet s d = s.prev + d.off) := by
  unfold addrGet addrSet
  split
  · split
    · rename_i h1 h2; exact Or.inr ⟨h1, h2.1, rfl⟩
    · exact Or.inl rfl
  · exact Or.inl rfl

/-- If the bytes of the metric `j` that are read are the same, the value is. -/
theorem same_value {s s' : S} {d : Desc} {m : Nat → Nat} (hw : Wrote s s' d m) {j : Nat} {e : Desc}
    (he : s.descs[j]? = some e) (hz : e.Sized)
    (h : ∀ x, addrGet s e ≤ x → x < addrGet s e + e.size → m x = s.mem x) : SameValue s s' j := by
  have hg := hw.addrGet e
  have hde : desc s (j : Int) = some e := desc_nat he
  have hde' : desc s' (j : Int) = some e := by rw [hw.desc]; exact hde
  constructor
  · rintro be t ⟨e', he', ht, ha⟩
    rw [he] at he'
    cases he'
    simp only [metricGet, hde, hde', Option.map_some, Option.some.injEq, hg, hw.mem]
    have := hz t ht
    simp only [ha, Bool.false_eq_true, if_false, Nat.one_mul] at this
    exact get_congr be true fun k hk => h _ (by omega) (by omega)
  · rintro be n t ⟨e', he', ht, ha, hn⟩ k hk
    rw [he] at he'
    cases he'
    simp only [arrayGet, hde, hde', hg, hw.mem]
    have := hz t ht
    simp only [ha, if_true, hn] at this
    have hr := mul_lt_room (w := t.width) hk
    split
    · rfl
    · congr 1
      exact get_congr be _ fun i hi => h _ (by simp only [Int.toNat_natCast]; omega) (by simp only [Int.toNat_natCast]; omega)

theorem mem_of_get? {α} {l : List α} {i : Nat} {a : α} (h : l[i]? = some a) : a ∈ l := List.mem_of_getElem? h

/-- **C70**: the other metrics of the set keep their values, for any reader. -/
theorem mval_others {be : Bool} {s s' : S} {stride : Nat} (hl : Laid s stride) {i j : Nat} {c : Call}
    (h : c.run be s i = some s') {d : Desc} (hd : s.descs[i]? = some d) (hp : c.Proper d)
    (hbe : be = false ∨ d.array = false ∨ ∃ k v, c = .genElem k v) (hij : j ≠ i) (hj : j < s.descs.length) :
    SameValue s s' j := by
  obtain ⟨m, hw, ho⟩ := mval_footprint h (desc_nat hd) hp (hl.sized d (mem_of_get? hd)) hbe
  have he : s.descs[j]? = some s.descs[j] := List.getElem?_eq_getElem hj
  generalize s.descs[j] = e at he
  have me := mem_of_get? he
  have md := mem_of_get? hd
  refine same_value hw he (hl.sized e me) fun x h1 h2 => ho x fun hx => ?_
  unfold Desc.Has addrSet at hx
  have hcp := hl.copies
  by_cases ed : e.isData = true
  · have hre := hl.dataRoom e me ed
    by_cases dd : d.isData = true
    · have hrd := hl.dataRoom d md dd
      have := hl.apart j i e d he hd hij (by rw [ed, dd])
      rw [if_pos dd] at hx
      unfold addrGet at h1 h2
      rw [if_pos ed] at h1 h2
      split at h1 <;> simp_all <;> omega
    · have hrd := hl.metaRoom d md (by simpa using dd)
      rw [if_neg dd] at hx
      unfold addrGet at h1 h2
      rw [if_pos ed] at h1 h2
      split at h1 <;> omega
  · have hre := hl.metaRoom e me (by simpa using ed)
    unfold addrGet at h1 h2
    rw [if_neg ed] at h1 h2
    by_cases dd : d.isData = true
    · rw [if_pos dd] at hx
      omega
    · rw [if_neg dd] at hx
      have := hl.apart j i e d he hd hij (by simp_all)
      omega

/-- **C70**: one call makes one new generation, of the data for a data metric and of the meta data
for the others; the data copy says which meta data it belongs to. -/
theorem mval_generation {be : Bool} {s s' : S} {i : Int} {c : Call} (h : c.run be s i = some s') {d : Desc}
    (hd : desc s i = some d) : GnOne s s' d.isData := by
  cases c with
  | scalar t v =>
    simp only [Call.run, metricSet, hd, Option.map_some, Option.some.injEq] at h
    subst h; exact gnInc_one ..
  | gen v =>
    simp only [Call.run, genSet, hd] at h
    split at h
    · cases h
    · split at h
      · cases h
      · simp only [Option.some.injEq] at h; subst h; exact gnInc_one ..
  | elem k t v =>
    simp only [Call.run, arraySet, hd] at h
    split at h
    · cases h
    · simp only [Option.some.injEq] at h; subst h; exact gnInc_one ..
  | genElem k v =>
    simp only [Call.run, genArraySet, hd] at h
    split at h
    · cases h
    · split at h
      · cases h
      · split at h
        · simp only [Option.some.injEq] at h; subst h; exact gnInc_one ..
        · cases h
  | range src start count =>
    simp only [Call.run, arraySetRange, hd] at h
    split at h
    · cases h
    · split at h
      · simp only [Option.some.injEq] at h; subst h; exact gnInc_one ..
      · cases h
  | str l =>
    simp only [Call.run, setStr, hd, Option.map_some, Option.some.injEq] at h
    subst h; exact gnInc_one ..

/-- **C70**: a number that is not that of a metric is not accepted by any function. -/
theorem mval_bad_metric {be : Bool} {s : S} {i : Int} (h : i < 0 ∨ s.descs.length ≤ i.toNat) :
    (∀ c : Call, c.run be s i = none) ∧ (∀ t, metricGet be s i t = none) ∧ (∀ k t, arrayGet be s i k t = none) ∧
      getStr s i = none ∧ ∀ u, userGet s u i = 2 ^ 64 - 1 ∧ ∀ v, userSet s u i v = (s, u) := by
  have hd : desc s i = none := by
    unfold desc
    split
    · rfl
    · rw [List.getElem?_eq_none]; omega
  refine ⟨fun c => ?_, fun t => ?_, fun k t => ?_, ?_, fun u => ⟨?_, fun v => ?_⟩⟩
  · cases hr : c.run be s i with
    | none => rfl
    | some s' => obtain ⟨d, e⟩ := run_desc hr; rw [hd] at e; cases e
  all_goals simp [metricGet, arrayGet, getStr, userGet, userSet, hd]

/-- **C70**: nor an index outside the array (little endian hosts). -/
theorem mval_bad_elem_partial {s : S} {i n : Nat} {t : Ty} (ha : Array s i n t) {k : Int} (hk : k < 0 ∨ (n : Int) ≤ k) :
    (∀ v, arraySet false s i k t v = none) ∧ (∀ v, genArraySet false s i k v = none) ∧
      arrayGet false s i k t = none := by
  obtain ⟨d, hd, ht, ha, hn⟩ := ha
  have hk' : k < 0 ∨ d.count ≤ k.toNat := by omega
  simp [arraySet, genArraySet, arrayGet, desc_nat hd, rawCount, cpuToLe, hk']

/-- **C70**: the generic functions do not take an array for a scalar, nor a scalar for an array, nor
lists and records. -/
theorem mval_kinds {be : Bool} {s : S} {i : Nat} {d : Desc} (hd : s.descs[i]? = some d) :
    (d.array = true ∨ d.ty = none → ∀ v, genSet be s i v = none) ∧
    (d.array = false ∨ d.ty = none → ∀ k v, genArraySet be s i k v = none) ∧
    (d.array = false ∨ d.ty = none → ∀ src start count, arraySetRange be s i src start count = none) := by
  have hde := desc_nat hd
  refine ⟨fun h v => ?_, fun h k v => ?_, fun h src start count => ?_⟩
  · rcases h with h | h
    · simp only [genSet, hde, h, if_true]; split <;> rfl
    · simp only [genSet, hde, h]
  · rcases h with h | h
    · simp only [genArraySet, hde, h, Bool.false_eq_true, if_false]
      split
      · rfl
      · split <;> rfl
    · simp only [genArraySet, hde, h]; split <;> rfl
  · rcases h with h | h
    · simp only [arraySetRange, hde, h, Bool.false_eq_true, if_false]; split <;> rfl
    · simp only [arraySetRange, hde, h]

/-! ## Scalars -/

/-- **C70**: a scalar set by a host of any byte order is read by a host of any byte order, after
the transaction, by the function of its type; the generic function sets the same. -/
theorem mval_scalar {s : S} {i : Nat} {t : Ty} (hs : Scalar s i t) {v : Int} (hv : t.Fits v) (be : Bool) :
    ∃ s', metricSet be s i t v = some s' ∧ genSet be s i v = some s' ∧
      ∀ be', metricGet be' { s' with inTxn := false } i t = some v := by
  obtain ⟨d, hd, ht, ha⟩ := hs
  have hde := desc_nat hd
  refine ⟨gnInc { s with mem := put be true t s.mem (addrSet s d) v } d, ?_, ?_, fun be' => ?_⟩
  · simp [metricSet, hde]
  · simp [genSet, hde, ht, ha]
  · have h2 : desc { gnInc { s with mem := put be true t s.mem (addrSet s d) v } d with inTxn := false } (i : Int) = some d := by
      unfold desc
      rw [if_neg (by omega)]
      simpa using hd
    simp only [metricGet, h2, Option.map_some, Option.some.injEq]
    have h3 : addrGet { gnInc { s with mem := put be true t s.mem (addrSet s d) v } d with inTxn := false } d = addrSet s d := by
      simp [addrGet, addrSet]
    rw [h3]
    simp [get_put hv]

/-- **C70**: inside a transaction what is read is the data before it, whatever is set, if the
ring has more than one copy. -/
theorem mval_txn {be : Bool} {s s' : S} {stride : Nat} (hl : Laid s stride) {i j : Nat} {c : Call}
    (h : c.run be s i = some s') {d e : Desc} (hd : s.descs[i]? = some d) (hp : c.Proper d)
    (hbe : be = false ∨ d.array = false ∨ ∃ k v, c = .genElem k v) (ht : s.inTxn = true) (hr : s.prev ≠ s.cur)
    (he : s.descs[j]? = some e) (hde : e.isData = true) (hdd : d.isData = true) (hty : e.ty.isSome = true) :
    SameValue s s' j := by
  obtain ⟨m, hw, ho⟩ := mval_footprint h (desc_nat hd) hp (hl.sized d (mem_of_get? hd)) hbe
  refine same_value hw he (hl.sized e (mem_of_get? he)) fun x h1 h2 => ho x fun hx => ?_
  have hg : addrGet s e = s.prev + e.off := by simp [addrGet, hde, ht, hty]
  rw [hg] at h1 h2
  unfold Desc.Has addrSet at hx
  rw [if_pos hdd] at hx
  have r1 := hl.dataRoom d (mem_of_get? hd) hdd
  have r2 := hl.dataRoom e (mem_of_get? he) hde
  have hcp := hl.copies
  omega

/-- **C70**: a metric of the meta data is read as set at once, also inside a transaction. -/
theorem mval_meta {s : S} {i : Nat} {d : Desc} (hd : s.descs[i]? = some d) (hm : d.isData = false) {t : Ty}
    {v : Int} (hv : t.Fits v) (be be' : Bool) :
    (metricSet be s i t v).bind (fun s' => metricGet be' s' i t) = some v := by
  have hde := desc_nat hd
  have h2 : desc (gnInc { s with mem := put be true t s.mem (addrSet s d) v } d) (i : Int) = some d := by
    unfold desc
    rw [if_neg (by omega)]
    simpa using hd
  simp only [metricSet, hde, Option.map_some, Option.bind_some, metricGet, h2, Option.some.injEq]
  simp [addrGet, addrSet, hm, get_put hv]

/-! ## Arrays -/

theorem arrayGet_eq {s : S} {i : Nat} {d : Desc} (hd : s.descs[i]? = some d) {k : Nat} (hk : k < d.count) (t : Ty) :
    arrayGet false s i k t = some (get false t.float t s.mem (addrGet s d + t.width * k)) := by
  simp only [arrayGet, desc_nat hd, rawCount, cpuToLe, Bool.false_eq_true, if_false, Int.toNat_natCast]
  rw [if_neg (by omega)]

/-- **C70**: an element set on a little endian host is read there, and the others of the array are
as before. -/
theorem mval_elem_partial {s : S} {i n : Nat} {t : Ty} (ha : Array s i n t) {k : Nat} (hk : k < n) {v : Int}
    (hv : t.Fits v) (hx : s.inTxn = false) :
    ∃ s', arraySet false s i k t v = some s' ∧ genArraySet false s i k v = some s' ∧
      arrayGet false s' i k t = some v ∧ ∀ k', k' < n → k' ≠ k → arrayGet false s' i k' t = arrayGet false s i k' t := by
  obtain ⟨d, hd, ht, ha, hn⟩ := ha
  have hde := desc_nat hd
  subst hn
  have hn1 : ¬ ((k : Int) < 0 ∨ d.count ≤ k) := by omega
  have hd' : (gnInc { s with mem := put false true t s.mem (addrSet s d + t.width * k) v } d).descs[i]? = some d := by simpa using hd
  have hg : addrGet (gnInc { s with mem := put false true t s.mem (addrSet s d + t.width * k) v } d) d = addrSet s d := by
    simp [addrGet, addrSet, hx]
  have hg0 : addrGet s d = addrSet s d := by simp [addrGet, addrSet, hx]
  refine ⟨gnInc { s with mem := put false true t s.mem (addrSet s d + t.width * k) v } d, ?_, ?_, ?_, fun k' hk' hne => ?_⟩
  · simp only [arraySet, hde, rawCount, cpuToLe, Bool.false_eq_true, if_false, Int.toNat_natCast, if_neg hn1]
  · simp only [genArraySet, hde, ht, ha, if_true, Int.toNat_natCast, if_neg hn1]
  · rw [arrayGet_eq hd' hk, hg]
    simp only [gnInc_mem, Option.some.injEq]
    exact get_put_le hv
  · rw [arrayGet_eq hd' hk', arrayGet_eq hd hk', hg, hg0]
    simp only [gnInc_mem, Option.some.injEq]
    apply get_put_ne
    rcases Nat.lt_or_gt_of_ne hne with h | h
    · have := Nat.mul_le_mul_left t.width h
      rw [Nat.mul_succ] at this
      omega
    · have := Nat.mul_le_mul_left t.width h
      rw [Nat.mul_succ] at this
      omega

/-- **C70**: `ldms_metric_array_set` on a little endian host: the elements from `start` on, `count`
of them or up to the end of the array, are those of the source with the same index; the others are as
before. -/
theorem mval_range_partial {s : S} {i n : Nat} {t : Ty} (ha : Array s i n t) {src : Nat → Int}
    (hv : ∀ k, t.Fits (src k)) (hx : s.inTxn = false) (start count : Nat) :
    ∃ s', arraySetRange false s i src start count = some s' ∧ ∀ k, k < n →
      arrayGet false s' i k t = if start ≤ k ∧ k < start + count then some (src k) else arrayGet false s i k t := by
  obtain ⟨d, hd, ht, ha, hn⟩ := ha
  have hde := desc_nat hd
  subst hn
  refine ⟨gnInc { s with mem := putRange false t (addrSet s d) src start (min (start + count) d.count - start) s.mem } d, ?_, fun k hk => ?_⟩
  · simp only [arraySetRange, hde, ht, ha, if_true, rawCount, cpuToLe, Bool.false_eq_true, if_false]
  · have hd' : (gnInc { s with mem := putRange false t (addrSet s d) src start (min (start + count) d.count - start) s.mem } d).descs[i]? = some d := by simpa using hd
    have hg : addrGet (gnInc { s with mem := putRange false t (addrSet s d) src start (min (start + count) d.count - start) s.mem } d) d = addrSet s d := by
      simp [addrGet, addrSet, hx]
    have hg0 : addrGet s d = addrSet s d := by simp [addrGet, addrSet, hx]
    rw [arrayGet_eq hd' hk, arrayGet_eq hd hk, hg, hg0]
    simp only [gnInc_mem]
    split
    · rename_i hc
      congr 1
      rw [get_le]
      exact get_putRange hv _ _ _ (by omega)
    · rename_i hc
      congr 1
      apply get_congr
      intro b hb
      have e1 : t.width * (k + 1) = t.width * k + t.width := Nat.mul_succ ..
      by_cases hlt : start < min (start + count) d.count
      · apply putRange_out
        have e : start + (min (start + count) d.count - start) = min (start + count) d.count := by omega
        rw [e]
        by_cases hks : k < start
        · have := Nat.mul_le_mul_left t.width hks
          rw [Nat.mul_succ] at this
          omega
        · have : t.width * min (start + count) d.count ≤ t.width * k := Nat.mul_le_mul_left _ (by omega)
          omega
      · have e : min (start + count) d.count - start = 0 := by omega
        rw [e]
        rfl

/-- **C70**: a string that is shorter than the array is read as it is, little endian hosts. -/
theorem mval_str_partial {s : S} {i n : Nat} (ha : Array s i n .char) (hx : s.inTxn = false) {str : List Nat}
    (hl : str.length < n) : ∃ s' a, setStr false s i str = some s' ∧ getStr s' i = some a ∧ IsStr s'.mem a str := by
  obtain ⟨d, hd, ht, ha, hn⟩ := ha
  have hde := desc_nat hd
  subst hn
  refine ⟨gnInc { s with mem := strncpy s.mem (addrSet s d) str d.count } d, addrSet s d, ?_, ?_, ?_, ?_⟩
  · simp [setStr, hde, rawCount, cpuToLe]
  · have h2 : desc (gnInc { s with mem := strncpy s.mem (addrSet s d) str d.count } d) (i : Int) = some d := by
      unfold desc
      rw [if_neg (by omega)]
      simpa using hd
    simp only [getStr, h2, Option.map_some, Option.some.injEq]
    simp [addrGet, addrSet, hx]
  · intro k hk
    simp only [gnInc_mem, strncpy]
    rw [write_in (by simp; omega)]
    rw [List.getElem_append_left (by simp; omega)]
    simp
  · simp only [gnInc_mem, strncpy]
    rw [write_in (by simp; omega)]
    rw [List.getElem_append_right (by simp; omega)]
    simp

/-! ## User data -/

/-- **C70**: user data is read as set, that of the other metrics is as before, and no value changes. -/
theorem mval_user {s : S} {u : Nat → Nat} {i : Nat} (hi : i < s.descs.length) (v : Nat) :
    userGet (userSet s u i v).1 (userSet s u i v).2 i = v ∧
      (∀ j : Nat, j ≠ i → userGet (userSet s u i v).1 (userSet s u i v).2 j = userGet s u j) ∧
      (userSet s u i v).1.mem = s.mem ∧ (userSet s u i v).1.descs = s.descs := by
  have hd : s.descs[i]? = some s.descs[i] := List.getElem?_eq_getElem hi
  have hde := desc_nat hd
  have he : userSet s u i v = (gnInc s s.descs[i], fun j => if j = i then v else u j) := by simp [userSet, hde]
  have hds : ∀ j, desc (gnInc s s.descs[i]) j = desc s j := by intro j; simp [desc]
  rw [he]
  refine ⟨?_, fun j hj => ?_, by simp, by simp⟩
  · simp [userGet, hds, hde]
  · simp only [userGet, hds]
    cases desc s (j : Int) with
    | none => rfl
    | some e => simp [hj]

/-! ## Records -/

theorem member_nat {r : R} {i : Nat} {d : Desc} (h : r.members[i]? = some d) : member r i = some d := by
  unfold member
  rw [if_neg (by omega)]
  simpa using h

@[simp] theorem gnIncR_mem (r : R) : (gnIncR r).mem = r.mem := rfl
@[simp] theorem gnIncR_base (r : R) : (gnIncR r).base = r.base := rfl
@[simp] theorem gnIncR_members (r : R) : (gnIncR r).members = r.members := rfl

/-- Setting bytes of one member of a record leaves the others as they are. -/
structure OtherMembers (r r' : R) (i : Nat) : Prop where
  scalars : ∀ j e t, j ≠ i → r.members[j]? = some e → e.ty = some t → e.array = false → ∀ be,
    recGet be r' j t = recGet be r j t
  arrays : ∀ j e t k, j ≠ i → r.members[j]? = some e → e.ty = some t → e.array = true → k < e.count → ∀ be,
    recArrayGet be r' j (k : Nat) t = recArrayGet be r j (k : Nat) t

theorem other_members {r : R} (hl : LaidR r) {i : Nat} {d : Desc} (hd : r.members[i]? = some d) {m : Nat → Nat}
    (h : ∀ x, x < r.base + d.off ∨ r.base + d.off + d.size ≤ x → m x = r.mem x) :
    OtherMembers r (gnIncR { r with mem := m }) i := by
  constructor
  · intro j e t hj he ht ha be
    have hm : member r (j : Int) = some e := member_nat he
    have hm' : member (gnIncR { r with mem := m }) (j : Int) = some e := member_nat (by simpa using he)
    simp only [recGet, hm, hm', Option.map_some, Option.some.injEq, gnIncR_mem, gnIncR_base]
    apply get_congr
    intro k hk
    apply h
    have := hl.sized e (mem_of_get? he) t ht
    simp only [ha, Bool.false_eq_true, if_false, Nat.one_mul] at this
    have := hl.apart j i e d he hd hj
    omega
  · intro j e t k hj he ht ha hk be
    have hm : member r (j : Int) = some e := member_nat he
    have hm' : member (gnIncR { r with mem := m }) (j : Int) = some e := member_nat (by simpa using he)
    simp only [recArrayGet, hm, hm', gnIncR_mem, gnIncR_base]
    split
    · rfl
    · congr 1
      apply get_congr
      intro b hb
      apply h
      have := hl.sized e (mem_of_get? he) t ht
      simp only [ha, if_true] at this
      have := hl.apart j i e d he hd hj
      have := mul_lt_room (w := t.width) hk
      simp only [Int.toNat_natCast]
      omega

/-- **C70**: members of records on little endian hosts: what is set is read, the other members are as
before, the data is a new generation. -/
theorem mval_record_partial {r : R} (hl : LaidR r) {i : Nat} {d : Desc} (hd : r.members[i]? = some d) {t : Ty}
    (ht : d.ty = some t) (ha : d.array = false) {v : Int} (hv : t.Fits v) :
    ∃ r', recSet false r i t v = some r' ∧ recGenSet false r i v = some r' ∧ recGet false r' i t = some v ∧
      OtherMembers r r' i ∧ r'.gn = (r.gn + 1) % 2 ^ 64 := by
  have hm := member_nat hd
  refine ⟨gnIncR { r with mem := put false false t r.mem (r.base + d.off) v }, ?_, ?_, ?_, ?_, rfl⟩
  · simp [recSet, hm]
  · simp [recGenSet, hm, ht, ha, put_le (conv := false)]
  · have hm' : member (gnIncR { r with mem := put false false t r.mem (r.base + d.off) v }) (i : Int) = some d :=
      member_nat (by simpa using hd)
    simp only [recGet, hm', Option.map_some, Option.some.injEq, gnIncR_mem, gnIncR_base]
    exact get_put_le hv
  · apply other_members hl hd
    intro x hx
    have := hl.sized d (mem_of_get? hd) t ht
    simp only [ha, Bool.false_eq_true, if_false, Nat.one_mul] at this
    exact put_out (by omega)

/-- **C70**: a member set by the generic function on a host of any byte order is read by a host of any
byte order. -/
theorem mval_record_generic {r : R} {i : Nat} {d : Desc} (hd : r.members[i]? = some d) {t : Ty}
    (ht : d.ty = some t) (ha : d.array = false) {v : Int} (hv : t.Fits v) (be be' : Bool) :
    (recGenSet be r i v).bind (fun r' => recGet be' r' i t) = some v := by
  have hm := member_nat hd
  have hm' : member (gnIncR { r with mem := put be true t r.mem (r.base + d.off) v }) (i : Int) = some d :=
    member_nat (by simpa using hd)
  simp [recGenSet, hm, ht, ha, recGet, hm', get_put hv]

/-- **C70**: an index outside an array of a record is refused by little endian hosts. -/
theorem mval_record_bad_elem_partial {r : R} {i : Nat} {d : Desc} (hd : r.members[i]? = some d) {k : Int}
    (hk : k < 0 ∨ (d.count : Int) ≤ k) (t : Ty) :
    (∀ v, recArraySet false r i k t v = none) ∧ recArrayGet false r i k t = none := by
  have hk' : k < 0 ∨ d.count ≤ k.toNat := by omega
  simp [recArraySet, recArrayGet, member_nat hd, rawCount, cpuToLe, hk']

theorem recArrayGet_eq {r : R} {i : Nat} {d : Desc} (hd : r.members[i]? = some d) {k : Nat} (hk : k < d.count) (t : Ty) :
    recArrayGet false r i k t = some (get false t.float t r.mem (r.base + d.off + t.width * k)) := by
  simp only [recArrayGet, member_nat hd, Int.toNat_natCast]
  rw [if_neg (by omega)]

/-- **C70**: elements of arrays in records on little endian hosts. -/
theorem mval_record_elem_partial {r : R} (hl : LaidR r) {i : Nat} {d : Desc} (hd : r.members[i]? = some d) {t : Ty}
    (ht : d.ty = some t) (ha : d.array = true) {v : Int} (hv : t.Fits v) {k : Nat} (hk : k < d.count) :
    ∃ r', recArraySet false r i k t v = some r' ∧ recArrayGet false r' i k t = some v ∧
      (∀ k', k' < d.count → k' ≠ k → recArrayGet false r' i k' t = recArrayGet false r i k' t) ∧
      OtherMembers r r' i ∧ r'.gn = (r.gn + 1) % 2 ^ 64 := by
  have hm := member_nat hd
  have hn1 : ¬ ((k : Int) < 0 ∨ d.count ≤ k) := by omega
  have hd' : (gnIncR { r with mem := put false false t r.mem (r.base + d.off + t.width * k) v }).members[i]? = some d := by
    simpa using hd
  refine ⟨gnIncR { r with mem := put false false t r.mem (r.base + d.off + t.width * k) v }, ?_, ?_, fun k' hk' hne => ?_, ?_, rfl⟩
  · simp only [recArraySet, hm, rawCount, cpuToLe, Bool.false_eq_true, if_false, Int.toNat_natCast, if_neg hn1]
  · rw [recArrayGet_eq hd' hk]
    simp only [gnIncR_mem, gnIncR_base, Option.some.injEq]
    exact get_put_le hv
  · rw [recArrayGet_eq hd' hk', recArrayGet_eq hd hk']
    simp only [gnIncR_mem, gnIncR_base, Option.some.injEq]
    apply get_put_ne
    rcases Nat.lt_or_gt_of_ne hne with h | h
    · have := Nat.mul_le_mul_left t.width h
      rw [Nat.mul_succ] at this
      omega
    · have := Nat.mul_le_mul_left t.width h
      rw [Nat.mul_succ] at this
      omega
  · apply other_members hl hd
    intro x hx
    have := hl.sized d (mem_of_get? hd) t ht
    simp only [ha, if_true] at this
    have := mul_lt_room (w := t.width) hk
    exact put_out (by omega)

/-- **C70**: `ldms_record_metric_array_set` sets the elements `start` to `start + count - 1` to the
value, if all are in the array, and aborts otherwise (little endian hosts). -/
theorem mval_record_range_partial {r : R} {i : Nat} {d : Desc} (hd : r.members[i]? = some d) {t : Ty}
    (ht : d.ty = some t) (ha : d.array = true) {v : Int} (hv : t.Fits v) (start count : Nat) :
    (start + count ≤ d.count → ∃ r', recArraySetRange false r i v start count = some r' ∧ ∀ k, k < d.count →
      recArrayGet false r' i k t = if start ≤ k ∧ k < start + count then some v else recArrayGet false r i k t) ∧
    (0 < count → d.count < start + count → recArraySetRange false r i v start count = none) := by
  have hm := member_nat hd
  constructor
  · intro hle
    obtain ⟨m, he⟩ := putSame_some (be := false) (t := t) (a := r.base + d.off) (v := v) count start r.mem hle
    refine ⟨gnIncR { r with mem := m }, ?_, fun k hk => ?_⟩
    · simp [recArraySetRange, hm, ht, ha, he]
    · have hd' : (gnIncR { r with mem := m }).members[i]? = some d := by simpa using hd
      rw [recArrayGet_eq hd' hk, recArrayGet_eq hd hk]
      simp only [gnIncR_mem, gnIncR_base]
      split
      · rename_i hc
        congr 1
        rw [get_le]
        exact get_putSame hv _ _ _ _ he hc
      · rename_i hc
        congr 1
        apply get_congr
        intro b hb
        apply putSame_out _ _ _ _ he
        by_cases hks : k < start
        · have := Nat.mul_le_mul_left t.width hks
          rw [Nat.mul_succ] at this
          omega
        · have : t.width * (start + count) ≤ t.width * k := Nat.mul_le_mul_left _ (by omega)
          omega
  · intro h0 hlt
    have key : ∀ (c k : Nat) (mem : Nat → Nat), 0 < c → d.count < k + c →
        putSame false t (r.base + d.off) d.count v k c mem = none := by
      intro c
      induction c with
      | zero => intro k mem h; omega
      | succ c ih =>
        intro k mem _ hl
        simp only [putSame, Int.toNat_natCast]
        by_cases hk : d.count ≤ k
        · rw [if_pos (Or.inr hk)]
        · rw [if_neg (by omega)]
          have := ih (k + 1) (put false true t mem (r.base + d.off + t.width * k) v) (by omega) (by omega)
          simpa using this
    simp [recArraySetRange, hm, ht, ha, key count start r.mem h0 hlt]

/-! ## The hypotheses are met -/

section
open Schema Layout

/-- The set of the sample schema of C22, inside a transaction: a `u64` and an array of three `u32`
among the data, a `u32` in the meta data, a list, a record and a record array. -/
example : ∃ w l, Reach Complete w ∧ Laid (setOf w l 1 0 (fun _ => 7) true 3 3 8) l.stride ∧
    Scalar (setOf w l 1 0 (fun _ => 7) true 3 3 8) 0 .u64 ∧ Scalar (setOf w l 1 0 (fun _ => 7) true 3 3 8) 1 .u32 ∧
    Mval.Array (setOf w l 1 0 (fun _ => 7) true 3 3 8) 3 3 .u32 ∧
    (setOf w l 1 0 (fun _ => 7) true 3 3 8).prev ≠ (setOf w l 1 0 (fun _ => 7) true 3 3 8).cur := by
  refine ⟨_, _, buildC_reach .new (ops := sample) rfl, mval_laid_partial (buildC_reach .new (ops := sample) rfl) ?_ (i := 20)
    (s := 10) (heap := 0) rfl (by omega) (by omega) (by decide) (by decide) (by decide) _ _ _ _ _, ?_, ?_, ?_, ?_⟩
  · refine ⟨?_, ?_, ?_, ?_, ?_, ?_, trivial⟩ <;> decide
  · exact ⟨_, rfl, rfl, rfl⟩
  · exact ⟨_, rfl, rfl, rfl⟩
  · exact ⟨_, rfl, rfl, rfl, rfl⟩
  · decide

/-- A record with a `u64` and an array of five `s8`. -/
example : LaidR ⟨fun _ => 0, 200, membersOf [⟨[120], none, 8, 1, 32, 8⟩, ⟨[121], none, 14, 5, 32, 8⟩], 4⟩ :=
  mval_laid_record _ (by decide) _ _ _

end

/-- A set with an array of two characters, one of four `u16` and a `d64`, one copy. -/
def demo : S :=
  ⟨fun _ => 0, [⟨some .char, true, true, 0, 2, 2⟩, ⟨some .u16, true, true, 2, 4, 8⟩, ⟨some .d64, false, true, 16, 1, 8⟩,
    ⟨some .s32, false, false, 4, 1, 4⟩], 64, 64, false, 1, 1, 5⟩

example : (metricSet true demo 3 .s32 (-2)).bind (fun s => metricGet false s 3 .s32) = some (-2) := by decide
example : (arraySet false demo 1 3 .u16 65535).bind (fun s => arrayGet false s 1 3 .u16) = some 65535 := by decide
example : (arraySetRange false demo 1 (fun k => 10 * k) 2 9).bind
    (fun s => arrayGet false s 1 3 .u16) = some 30 := by decide
example : (arraySetRange false demo 1 (fun k => 10 * k) 2 9).bind
    (fun s => arrayGet false s 1 1 .u16) = some 0 := by decide
example : (genSet false demo 1 4).isNone = true ∧ (genArraySet false demo 3 0 4).isNone = true := by decide
example : (setStr false demo 0 [97]).map (fun s => (s.mem 64, s.mem 65)) = some (97, 0) := by decide

/-! ## Defects -/

/-- **Defect**: on a big endian host the elements of integer arrays are converted when they are set
and not when they are read. -/
theorem big_endian_array_defect :
    (arraySet true demo 1 0 .u16 1).bind (fun s => arrayGet true s 1 0 .u16) = some 256 := by decide

/-- **Defect**: the index is compared with the count of the array as it is in memory.  On a big endian
host an array of four elements takes the index 100, and the bytes changed are not those of the array. -/
theorem big_endian_index_defect :
    (arraySet true demo 1 100 .u16 1).map (fun s => s.mem 266) = some 1 ∧
      ¬ (⟨some .u16, true, true, 2, 4, 8⟩ : Desc).Has demo 266 := by
  refine ⟨by decide +kernel, ?_⟩
  unfold Desc.Has
  decide

/-- **Defect**: members of records are set without conversion and read with it. -/
theorem big_endian_record_defect :
    (recSet true ⟨fun _ => 0, 8, [⟨some .u32, false, true, 16, 1, 4⟩], 0⟩ 0 .u32 1).bind (fun r => recGet true r 0 .u32) =
      some 16777216 := by decide

/-- **Defect**: a string as long as the array has no end; what is read goes on in the next metric. -/
theorem string_end_defect : ∃ s s', arraySet false demo 1 0 .u16 99 = some s ∧
    setStr false s 0 [97, 98] = some s' ∧ getStr s' 0 = some 64 ∧ ¬ IsStr s'.mem 64 [97, 98] ∧ IsStr s'.mem 64 [97, 98, 99] := by
  refine ⟨_, _, rfl, rfl, rfl, ?_, ?_⟩
  · intro h
    exact absurd h.2 (by decide)
  · refine ⟨fun k hk => ?_, by decide⟩
    match k, hk with
    | 0, _ => rfl
    | 1, _ => rfl
    | 2, _ => rfl

/-- **Defect**: the functions do not look at the type.  An element of an array of `u16` set as `u64`
changes the metric after it. -/
theorem wrong_type_defect : metricGet false demo 2 .d64 = some 0 ∧
    (arraySet false demo 1 2 .u64 1).bind (fun s => metricGet false s 2 .d64) = some 65536 := by
  decide +kernel

/-- **Defect**: user data is in the meta data, but for a metric of the data only the generation of the
data changes, so that peers do not fetch it. -/
theorem user_data_generation_defect {s : S} {i : Nat} {d : Desc} (hd : s.descs[i]? = some d) (hi : d.isData = true)
    (u : Nat → Nat) (v : Nat) : (userSet s u i v).1.metaGn = s.metaGn ∧ (userSet s u i v).1.dataMetaGn = s.dataMetaGn ∧
      (userSet s u i v).2 i = v := by
  simp [userSet, desc_nat hd, gnInc, hi]

end Verif.Mval
