import Verif.Layout.Spec

/-!
# The regions of a set follow each other
-/

namespace Verif.Layout

open Schema

theorem dictRegs_chain (os : List Nat) (i : Nat) : Chain (140 + 4 * i) (dictRegs i os) (140 + 4 * (i + os.length)) := by
  induction os generalizing i with
  | nil => exact Nat.le_refl _
  | cons o os ih =>
    refine ⟨Nat.le_refl _, Nat.le_add_right _ _, ?_⟩
    have := ih (i + 1)
    rw [show i + 1 + os.length = i + (os.length + 1) by omega] at this
    exact this

theorem descLoop_length (ms : List Met) (d : Nat) : (descLoop ms d).length = ms.length := by
  induction ms generalizing d with
  | nil => rfl
  | cons m ms ih => simp [descLoop, ih]

theorem descLoop_le (ms : List Met) (d : Nat) : ∀ o ∈ descLoop ms d, o ≤ d + (ms.map (·.metaSz)).sum := by
  induction ms generalizing d with
  | nil => intro o h; cases h
  | cons m ms ih =>
    intro o h
    simp only [List.map_cons, List.sum_cons]
    rcases List.mem_cons.1 h with rfl | h
    · omega
    · have := ih _ o h; omega

theorem desc_chain {recs : List Rec} (ms : List Met) (hok : ∀ m ∈ ms, MetOk recs m) (d i : Nat) :
    Chain d (descRegs i ms (descLoop ms d)) (d + (ms.map (·.metaSz)).sum) := by
  induction ms generalizing d i with
  | nil => exact Nat.le_refl _
  | cons m ms ih =>
    have hm := (hok m List.mem_cons_self).meta27
    have := ih (fun x hx => hok x (List.mem_cons_of_mem _ hx)) (d + m.metaSz) (i + 1)
    refine ⟨Nat.le_refl _, by show d ≤ d + 27 + _; omega, ?_⟩
    simp only [List.map_cons, List.sum_cons]
    exact this.mono (by show d + 27 + _ ≤ _; omega) (by omega)

/-- the sizes in the code are the sizes of the types -/
theorem rawSize_plain (t c : Nat) : (rawSize t c).getD 0 = plainBytes t c := by
  by_cases h : t ≤ 27
  · have : t = 0 ∨ t = 1 ∨ t = 2 ∨ t = 3 ∨ t = 4 ∨ t = 5 ∨ t = 6 ∨ t = 7 ∨ t = 8 ∨ t = 9 ∨ t = 10 ∨ t = 11 ∨ t = 12 ∨
      t = 13 ∨ t = 14 ∨ t = 15 ∨ t = 16 ∨ t = 17 ∨ t = 18 ∨ t = 19 ∨ t = 20 ∨ t = 21 ∨ t = 22 ∨ t = 23 ∨ t = 24 ∨
      t = 25 ∨ t = 26 ∨ t = 27 := by omega
    rcases this with rfl | rfl | rfl | rfl | rfl | rfl | rfl | rfl | rfl | rfl | rfl | rfl | rfl | rfl | rfl | rfl |
      rfl | rfl | rfl | rfl | rfl | rfl | rfl | rfl | rfl | rfl | rfl | rfl <;>
      simp [rawSize, plainBytes, elemBytes, Nat.mul_comm]
  · have h1 : rawSize t c = none := by
      unfold rawSize
      split <;> first | omega | rfl
    rw [h1]
    simp only [Option.getD_none, plainBytes]
    rw [if_neg (by omega), if_neg (by omega), if_neg (by simp; omega), if_neg (by simp; omega)]

theorem valueBytes_le {recs : List Rec} {m : Met} (h : MetOk recs m) : valueBytes recs m ≤ m.dataSz := by
  unfold valueBytes
  cases hk : m.kind with
  | plain =>
    have := (h.plain hk).1
    unfold valueSize at this
    dsimp only
    rw [← rawSize_plain]
    cases hr : rawSize m.type m.count with
    | none => simp
    | some n =>
      rw [hr] at this
      simp only [Option.map_some, Option.some.injEq] at this
      simp only [Option.getD_some]
      have := roundup8_ge n
      omega
  | record r =>
    obtain ⟨_, _, rc, hr, _, hd⟩ := h.record r hk
    dsimp only
    rw [hr, hd]
    simp only [Option.map_some, Option.getD_some, recDataSz, typeSz]
    have : ∀ ms : List Mem, 4 * ms.length + (ms.map (·.metaSz)).sum = (ms.map fun m => m.metaSz + 4).sum := by
      intro ms
      induction ms with
      | nil => rfl
      | cons a as ih => simp only [List.length_cons, List.map_cons, List.sum_cons, ← ih]; omega
    have := this rc.members
    omega
  | recArray i t =>
    rw [(h.recArray i t hk).2.2]
    exact roundup8_ge _

/-- the value size of a data metric that is not a record array is what the schema counted -/
theorem dataSize_eq {recs : List Rec} {m : Met} (h : MetOk recs m) (hd : m.isData = true)
    (ht : m.type ≠ vRecordArray) : (valueSize m.type m.count).getD 0 = m.dataSz := by
  cases hk : m.kind with
  | plain => rw [(h.plain hk).1]; rfl
  | record r => rw [(h.record r hk).2.1] at hd; cases hd
  | recArray i t => exact absurd (h.recArray i t hk).1 ht

theorem metaSize_eq {recs : List Rec} {m : Met} (h : MetOk recs m) (hd : m.isData = false) :
    (if m.type = vRecordType then curSz recs m else (valueSize m.type m.count).getD 0) = m.dataSz := by
  cases hk : m.kind with
  | plain =>
    obtain ⟨a, b⟩ := h.plain hk
    rw [if_neg b, a]; rfl
  | record r =>
    obtain ⟨a, _, rc, b, _, c⟩ := h.record r hk
    rw [if_pos a, curSz, hk]
    dsimp only
    rw [b, c]; rfl
  | recArray i t => rw [(h.recArray i t hk).2.1] at hd; cases hd

theorem dataLoop_none {ms : List Met} (h : ∀ m ∈ ms, m.isData = false) (off : Nat) :
    ∀ o ∈ dataLoop ms off, o = none := by
  induction ms generalizing off with
  | nil => intro o ho; cases ho
  | cons m ms ih =>
    intro o ho
    rcases List.mem_cons.1 ho with rfl | ho
    · rw [h m List.mem_cons_self]; rfl
    · exact ih (fun x hx => h x (List.mem_cons_of_mem _ hx)) _ o ho

theorem valRegs_none {recs : List Rec} {tag : Nat → Item} {base : Nat} (ms : List Met) {os : List (Option Nat)}
    (h : ∀ o ∈ os, o = none) (i : Nat) : valRegs recs tag base i ms os = [] := by
  induction ms generalizing os i with
  | nil => cases os <;> rfl
  | cons m ms ih =>
    cases os with
    | nil => rfl
    | cons o os =>
      rw [h o List.mem_cons_self]
      exact ih (fun x hx => h x (List.mem_cons_of_mem _ hx)) _

theorem dataLoop_le {recs : List Rec} (ms : List Met) (hok : ∀ m ∈ ms, MetOk recs m) (hl : ArraysLast ms) (off : Nat) :
    ∀ o, some o ∈ dataLoop ms off → o ≤ off + (ms.map dataPart).sum := by
  induction ms generalizing off with
  | nil => intro o h; cases h
  | cons m ms ih =>
    intro o h
    simp only [List.map_cons, List.sum_cons]
    rcases List.mem_cons.1 h with h | h
    · split at h
      · cases h; omega
      · cases h
    · by_cases ht : m.type = vRecordArray
      · cases dataLoop_none (hl.1 ht) _ _ h
      · rw [if_neg ht] at h
        have := ih (fun x hx => hok x (List.mem_cons_of_mem _ hx)) hl.2 _ o h
        unfold dataPart at this ⊢
        cases hd : m.isData with
        | true =>
          rw [hd, if_pos rfl, dataSize_eq (hok m List.mem_cons_self) hd ht] at this
          simp only [if_true]; omega
        | false => rw [hd] at this; simpa using this

theorem data_chain {recs : List Rec} {tag : Nat → Item} (base : Nat) (ms : List Met) (hok : ∀ m ∈ ms, MetOk recs m)
    (hl : ArraysLast ms) (off i : Nat) :
    Chain (base + off) (valRegs recs tag base i ms (dataLoop ms off)) (base + off + (ms.map dataPart).sum) := by
  induction ms generalizing off i with
  | nil => exact Nat.le_refl _
  | cons m ms ih =>
    have hm := hok m List.mem_cons_self
    simp only [List.map_cons, List.sum_cons]
    rw [dataLoop]
    cases hd : m.isData with
    | false =>
      simp only [Bool.false_eq_true, if_false, valRegs]
      have hp : dataPart m = 0 := by unfold dataPart; rw [hd]; rfl
      rw [hp]
      by_cases ht : m.type = vRecordArray
      · rw [valRegs_none ms (dataLoop_none (hl.1 ht) _)]
        exact Nat.le_add_right _ _
      · rw [if_neg ht]
        have := ih (fun x hx => hok x (List.mem_cons_of_mem _ hx)) hl.2 off (i + 1)
        simpa using this
    | true =>
      simp only [if_true, valRegs]
      have hp : dataPart m = m.dataSz := by unfold dataPart; rw [hd]; rfl
      rw [hp]
      have hb := valueBytes_le hm
      refine ⟨Nat.le_refl _, Nat.le_add_right _ _, ?_⟩
      by_cases ht : m.type = vRecordArray
      · rw [valRegs_none ms (dataLoop_none (hl.1 ht) _)]
        show base + off + valueBytes recs m ≤ _
        omega
      · rw [if_neg ht, dataSize_eq hm hd ht]
        have := ih (fun x hx => hok x (List.mem_cons_of_mem _ hx)) hl.2 (off + m.dataSz) (i + 1)
        exact this.mono (by show base + off + _ ≤ _; omega) (by omega)

theorem metaLoop_le {recs : List Rec} (ms : List Met) (hok : ∀ m ∈ ms, MetOk recs m) (off : Nat) :
    ∀ o, some o ∈ metaLoop recs ms off → o ≤ off + (ms.map metaPart).sum := by
  induction ms generalizing off with
  | nil => intro o h; cases h
  | cons m ms ih =>
    intro o h
    simp only [List.map_cons, List.sum_cons]
    rcases List.mem_cons.1 h with h | h
    · split at h
      · cases h
      · cases h; omega
    · have := ih (fun x hx => hok x (List.mem_cons_of_mem _ hx)) _ o h
      unfold metaPart at this ⊢
      cases hd : m.isData with
      | true => rw [hd] at this; simpa using this
      | false =>
        rw [hd, if_neg (by simp), metaSize_eq (hok m List.mem_cons_self) hd] at this
        simp only [Bool.false_eq_true, if_false]; omega

theorem meta_chain {recs : List Rec} {tag : Nat → Item} (ms : List Met) (hok : ∀ m ∈ ms, MetOk recs m)
    (off i : Nat) :
    Chain off (valRegs recs tag 0 i ms (metaLoop recs ms off)) (off + (ms.map metaPart).sum) := by
  induction ms generalizing off i with
  | nil => exact Nat.le_refl _
  | cons m ms ih =>
    have hm := hok m List.mem_cons_self
    simp only [List.map_cons, List.sum_cons]
    rw [metaLoop]
    cases hd : m.isData with
    | true =>
      simp only [if_true, valRegs]
      have hp : metaPart m = 0 := by unfold metaPart; rw [hd]; rfl
      rw [hp]
      have := ih (fun x hx => hok x (List.mem_cons_of_mem _ hx)) off (i + 1)
      simpa using this
    | false =>
      rw [if_neg (by simp), if_neg (by simp), metaSize_eq hm hd]
      simp only [valRegs]
      have hp : metaPart m = m.dataSz := by unfold metaPart; rw [hd]; rfl
      rw [hp]
      have hb := valueBytes_le hm
      refine ⟨by show off ≤ 0 + off; omega, Nat.le_add_right _ _, ?_⟩
      have := ih (fun x hx => hok x (List.mem_cons_of_mem _ hx)) (off + m.dataSz) (i + 1)
      exact this.mono (by show 0 + off + _ ≤ _; omega) (by omega)

theorem trunc_map {l : List Nat} (h : ∀ o ∈ l, o < 2 ^ 32) : l.map trunc = l := by
  induction l with
  | nil => rfl
  | cons a as ih =>
    rw [List.map_cons, ih fun o ho => h o (List.mem_cons_of_mem _ ho), trunc, Nat.mod_eq_of_lt (h a List.mem_cons_self)]

theorem trunc_map_opt {l : List (Option Nat)} (h : ∀ o, some o ∈ l → o < 2 ^ 32) : l.map (Option.map trunc) = l := by
  induction l with
  | nil => rfl
  | cons a as ih =>
    rw [List.map_cons, ih fun o ho => h o (List.mem_cons_of_mem _ ho)]
    cases a with
    | none => rfl
    | some a => rw [Option.map_some, trunc, Nat.mod_eq_of_lt (h a List.mem_cons_self)]

theorem flatMap_chain {f : Nat → List Reg} {base stride : Nat}
    (h : ∀ k, Chain (base + k * stride) (f k) (base + (k + 1) * stride)) (n : Nat) :
    Chain base ((List.range n).flatMap f) (base + n * stride) := by
  induction n with
  | zero => simp [Chain]
  | succ n ih =>
    rw [List.range_succ, List.flatMap_append]
    refine ih.append ?_
    simp only [List.flatMap_cons, List.flatMap_nil, List.append_nil]
    exact h n

theorem sum_mod8 {l : List Met} {f : Met → Nat} (h : ∀ m ∈ l, f m % 8 = 0) : (l.map f).sum % 8 = 0 := by
  induction l with
  | nil => rfl
  | cons m ms ih =>
    have h1 := h m List.mem_cons_self
    have h2 := ih fun x hx => h x (List.mem_cons_of_mem _ hx)
    simp only [List.map_cons, List.sum_cons]
    omega

theorem typeSz_mod4 {ms : List Mem} (h : ∀ m ∈ ms, m.metaSz % 8 = 0) : typeSz ms % 4 = 0 := by
  induction ms with
  | nil => rfl
  | cons m ms ih =>
    have h1 := h m List.mem_cons_self
    have h2 := ih fun x hx => h x (List.mem_cons_of_mem _ hx)
    unfold typeSz at h2 ⊢
    simp only [List.map_cons, List.sum_cons]
    omega

/-- what is not a multiple of eight in the meta data comes from records, and is counted twice -/
theorem metaPart_extra {w : W} (h : Inv w) : ∀ ms : List Met, (∀ m ∈ ms, m ∈ w.metrics) →
    (ms.map metaPart).sum % 8 = (ms.map extra).sum % 8 ∧ (ms.map extra).sum % 4 = 0 := by
  intro ms
  induction ms with
  | nil => intro _; exact ⟨rfl, rfl⟩
  | cons m ms ih =>
    intro hs
    obtain ⟨a, b⟩ := ih fun x hx => hs x (List.mem_cons_of_mem _ hx)
    have hm := h.ok m (hs m List.mem_cons_self)
    have key : metaPart m % 8 = extra m % 8 ∧ extra m % 4 = 0 := by
      unfold metaPart extra
      cases hk : m.kind with
      | plain =>
        have := (hm.plain hk).1
        unfold valueSize at this
        cases hr : rawSize m.type m.count with
        | none => rw [hr] at this; cases this
        | some n =>
          rw [hr] at this
          simp only [Option.map_some, Option.some.injEq] at this
          have := roundup8_mod n
          dsimp only
          split <;> omega
      | record r =>
        obtain ⟨_, hd, rc, hr, _, hs⟩ := hm.record r hk
        have := typeSz_mod4 (h.meta4 rc (List.mem_of_getElem? hr))
        rw [hd, hs, recDataSz]
        simp only [Bool.false_eq_true, if_false]
        omega
      | recArray i t =>
        rw [(hm.recArray i t hk).2.1]
        simp
    simp only [List.map_cons, List.sum_cons]
    omega

theorem dict_sum (ms : List Met) : (ms.map fun m => m.metaSz + 4).sum = (ms.map (·.metaSz)).sum + 4 * ms.length := by
  induction ms with
  | nil => rfl
  | cons m ms ih => simp only [List.map_cons, List.sum_cons, ih, List.length_cons]; omega

theorem regs_chain {w : W} (hw : Inv w) (hl : ArraysLast w.metrics) {i s heap : Nat} {l : Layout}
    (hc : setCreate w i s heap = some l) (hi : i ≤ 254) (hs : s ≤ 221) (ht : l.total < 2 ^ 32) :
    Chain 0 (regs w i s l) l.total := by
  unfold setCreate at hc
  split at hc
  · cases hc
  · simp only [Option.some.injEq] at hc
    have hM := hw.metaSz
    rw [dict_sum] at hM
    have hD := hw.dataSz
    obtain ⟨e1, e2⟩ := metaPart_extra hw w.metrics (fun _ h => h)
    have e3 : (w.metrics.map (·.metaSz)).sum % 8 = 0 := sum_mod8 fun m hm => (hw.ok m hm).meta8
    have hso : schemaOff w i = 140 + 4 * w.metrics.length + 1 + (i + 1) := by
      unfold schemaOff instOff; rw [Nat.mod_eq_of_lt (by omega)]
    have hfd : firstDesc w i s = roundup8 (140 + 4 * w.metrics.length + 1 + (i + 1) + 1 + (s + 34)) := by
      unfold firstDesc; rw [hso, Nat.mod_eq_of_lt (by omega)]
    have hfd8 : firstDesc w i s % 8 = 0 := roundup8_mod _
    generalize hd0 : firstDesc w i s = d0 at hc hfd hfd8
    generalize hv : roundup8 (d0 + (w.metrics.map (·.metaSz)).sum) = v0 at hc
    have hv0 : v0 = d0 + (w.metrics.map (·.metaSz)).sum := by
      rw [← hv]; unfold roundup8; omega
    have hmt : v0 + (w.metrics.map metaPart).sum ≤ metaTotal w i s := by
      unfold metaTotal roundup8 at *
      omega
    have hcp : 0 < copies w := by unfold copies; split <;> omega
    have hst : 0 < l.copies ∧ l.metaSz = metaTotal w i s ∧ l.stride = w.dataSz + heapSize w heap ∧ l.heapSz = heapSize w heap := by
      rw [← hc]; exact ⟨hcp, rfl, rfl, rfl⟩
    have htot : metaTotal w i s + (w.dataSz + heapSize w heap) ≤ l.total := by
      unfold Layout.total
      rw [hst.2.1, hst.2.2.1]
      have : 1 * (w.dataSz + heapSize w heap) ≤ l.copies * (w.dataSz + heapSize w heap) :=
        Nat.mul_le_mul_right _ hst.1
      omega
    have hdict : l.dict = descLoop w.metrics d0 := by
      rw [← hc]
      refine trunc_map fun o ho => ?_
      have := descLoop_le w.metrics d0 o ho
      omega
    have hdat : l.dataVal = dataLoop w.metrics 96 := by
      rw [← hc]
      refine trunc_map_opt fun o ho => ?_
      have := dataLoop_le w.metrics hw.ok hl 96 o ho
      omega
    have hmet : l.metaVal = metaLoop w.recs w.metrics v0 := by
      rw [← hc]
      refine trunc_map_opt fun o ho => ?_
      have := metaLoop_le w.metrics hw.ok v0 o ho
      omega
    unfold regs
    rw [hdict, hmet]
    refine ⟨Nat.le_refl _, by decide, ?_⟩
    have c1 : Chain 140 (dictRegs 0 (descLoop w.metrics d0)) (140 + 4 * w.metrics.length) := by
      have := dictRegs_chain (descLoop w.metrics d0) 0
      rw [descLoop_length, Nat.zero_add] at this
      exact this
    refine c1.append ?_
    refine ⟨Nat.le_refl _, by show instOff w ≤ instOff w + 1 + (i + 1); omega, ?_⟩
    refine ⟨by show instOff w + 1 + (i + 1) ≤ schemaOff w i; rw [hso]; unfold instOff; omega,
      by show schemaOff w i ≤ schemaOff w i + 1 + (s + 1) + 32; omega, ?_⟩
    have c2 := (desc_chain w.metrics hw.ok d0 0)
    have c3 := (meta_chain (tag := .metaVal) w.metrics hw.ok v0 0)
    have c4 : Chain (metaTotal w i s) ((List.range l.copies).flatMap (copyRegs w l)) l.total := by
      unfold Layout.total
      rw [← hst.2.1]
      refine flatMap_chain (fun k => ?_) l.copies
      unfold copyRegs
      refine ⟨Nat.le_refl _, Nat.le_add_right _ _, ?_⟩
      have c5 := data_chain (recs := w.recs) (tag := .dataVal k) (l.metaSz + k * l.stride) w.metrics hw.ok hl 96 0
      rw [hdat]
      refine c5.append ?_
      rw [Nat.add_mul, Nat.one_mul]
      refine ⟨?_, ?_, ?_⟩
      · show _ ≤ l.metaSz + k * l.stride + (l.stride - l.heapSz)
        have := hst.2.2.1
        have := hst.2.2.2
        omega
      · show l.metaSz + k * l.stride + (l.stride - l.heapSz) ≤ l.metaSz + k * l.stride + l.stride
        omega
      · show l.metaSz + k * l.stride + l.stride ≤ l.metaSz + (k * l.stride + l.stride)
        omega
    refine (c2.mono ?_ (Nat.le_of_eq hv0.symm)).append (c3.append (c4.mono hmt (Nat.le_refl _)))
    show schemaOff w i + 1 + (s + 1) + 32 ≤ d0
    rw [hso, hfd]
    have := roundup8_ge (140 + 4 * w.metrics.length + 1 + (i + 1) + 1 + (s + 34))
    omega

end Verif.Layout
