import Verif.Layout.Proofs

/-!
# C22: metrics of a set never overlap and lie inside the set
-/

namespace Verif.Layout

open Schema

/-- *Different parts of a set never share a byte and lie inside the set*: for every schema built by any
calls, in every set made from it.  What is missing, and false: names longer than the length byte can
tell (`long_instance_name_defect`, `long_schema_name_defect`), data metrics that follow a record array
(`record_array_overflow_defect`), members added to a record after it was added to the schema
(`late_member_overlap_defect`, `late_member_array_defect`), sets of 4 GiB and more. -/
theorem layout_disjoint_partial {w : W} (hw : Reach Complete w) (hl : ArraysLast w.metrics) {i s heap : Nat}
    {l : Layout} (hc : setCreate w i s heap = some l) (hi : i ≤ 254) (hs : s ≤ 221) (ht : l.total < 2 ^ 32) :
    (regs w i s l).Pairwise (fun a b => a.hi ≤ b.lo) ∧
    ∀ r ∈ regs w i s l, r.lo ≤ r.hi ∧ r.hi ≤ l.total := by
  have := regs_chain (reach_inv hw) hl hc hi hs ht
  exact ⟨this.pairwise, fun r hr => ⟨(this.bounds r hr).2.1, (this.bounds r hr).2.2⟩⟩

theorem valRegs_mem {recs : List Rec} {tag : Nat → Item} {base : Nat} {ms : List Met} {os : List (Option Nat)}
    {j : Nat} {m : Met} {o : Nat} (h1 : ms[j]? = some m) (h2 : os[j]? = some (some o)) (i : Nat) :
    ⟨tag (i + j), base + o, base + o + valueBytes recs m⟩ ∈ valRegs recs tag base i ms os := by
  induction ms generalizing os i j with
  | nil => simp at h1
  | cons x xs ih =>
    cases os with
    | nil => simp at h2
    | cons y ys =>
      cases j with
      | zero =>
        simp only [List.getElem?_cons_zero, Option.some.injEq] at h1 h2
        subst h1; subst h2
        simp [valRegs]
      | succ j =>
        simp only [List.getElem?_cons_succ] at h1 h2
        have := ih h1 h2 (i + 1)
        rw [show i + 1 + j = i + (j + 1) by omega] at this
        cases y with
        | none => exact this
        | some y => exact List.mem_cons_of_mem _ this

theorem dataLoop_some {ms : List Met} {j : Nat} {m : Met} (h : ms[j]? = some m) (off : Nat) :
    ∃ o, (dataLoop ms off)[j]? = some (if m.isData then some o else none) := by
  induction ms generalizing j off with
  | nil => simp at h
  | cons x xs ih =>
    cases j with
    | zero =>
      simp only [List.getElem?_cons_zero, Option.some.injEq] at h
      subst h
      exact ⟨off, rfl⟩
    | succ j =>
      simp only [List.getElem?_cons_succ] at h
      obtain ⟨o, ho⟩ := ih h (off + (if x.isData then (valueSize x.type x.count).getD 0 else 0)
        + (if x.type = vRecordArray then x.count * x.dataSz else 0))
      exact ⟨o, by rw [dataLoop, List.getElem?_cons_succ]; exact ho⟩

theorem metaLoop_some {recs : List Rec} {ms : List Met} {j : Nat} {m : Met} (h : ms[j]? = some m) (off : Nat) :
    ∃ o, (metaLoop recs ms off)[j]? = some (if m.isData then none else some o) := by
  induction ms generalizing j off with
  | nil => simp at h
  | cons x xs ih =>
    cases j with
    | zero =>
      simp only [List.getElem?_cons_zero, Option.some.injEq] at h
      subst h
      exact ⟨off, rfl⟩
    | succ j =>
      simp only [List.getElem?_cons_succ] at h
      obtain ⟨o, ho⟩ := ih h (off + (if x.isData then 0 else
        if x.type = vRecordType then curSz recs x else (valueSize x.type x.count).getD 0))
      exact ⟨o, by rw [metaLoop, List.getElem?_cons_succ]; exact ho⟩

/-- *The regions above are all there are*: every metric has a value, in the meta data or in every data
copy, with all the bytes that its type needs. -/
theorem layout_complete {w : W} {i s heap : Nat} {l : Layout} (hc : setCreate w i s heap = some l) {j : Nat}
    {m : Met} (hj : w.metrics[j]? = some m) :
    (m.isData = false → ∃ r ∈ regs w i s l, r.item = .metaVal j ∧ r.hi = r.lo + valueBytes w.recs m) ∧
    (m.isData = true → ∀ k < l.copies, ∃ r ∈ regs w i s l, r.item = .dataVal k j ∧
      r.hi = r.lo + valueBytes w.recs m) := by
  unfold setCreate at hc
  split at hc
  · cases hc
  · simp only [Option.some.injEq] at hc
    constructor
    · intro hd
      obtain ⟨o, ho⟩ := metaLoop_some (recs := w.recs) hj
        (roundup8 (firstDesc w i s + (w.metrics.map (·.metaSz)).sum))
      rw [hd] at ho
      have hm : l.metaVal[j]? = some (some (trunc o)) := by
        rw [← hc]
        show (List.map _ _)[j]? = _
        rw [List.getElem?_map, ho]; rfl
      have := valRegs_mem (recs := w.recs) (tag := .metaVal) (base := 0) hj hm 0
      rw [Nat.zero_add] at this
      refine ⟨⟨.metaVal j, 0 + trunc o, 0 + trunc o + valueBytes w.recs m⟩, ?_, rfl, rfl⟩
      · exact List.mem_cons_of_mem _ (List.mem_append_right _ (List.mem_cons_of_mem _ (List.mem_cons_of_mem _
          (List.mem_append_right _ (List.mem_append_left _ this)))))
    · intro hd k hk
      obtain ⟨o, ho⟩ := dataLoop_some hj 96
      rw [hd] at ho
      have hm : l.dataVal[j]? = some (some (trunc o)) := by
        rw [← hc]
        show (List.map _ _)[j]? = _
        rw [List.getElem?_map, ho]; rfl
      have := valRegs_mem (recs := w.recs) (tag := .dataVal k) (base := l.metaSz + k * l.stride) hj hm 0
      rw [Nat.zero_add] at this
      refine ⟨⟨.dataVal k j, l.metaSz + k * l.stride + trunc o,
        l.metaSz + k * l.stride + trunc o + valueBytes w.recs m⟩, ?_, rfl, rfl⟩
      · refine List.mem_cons_of_mem _ (List.mem_append_right _ (List.mem_cons_of_mem _ (List.mem_cons_of_mem _
          (List.mem_append_right _ (List.mem_append_right _ ?_)))))
        rw [List.mem_flatMap]
        refine ⟨k, List.mem_range.2 hk, ?_⟩
        exact List.mem_cons_of_mem _ (List.mem_append_left _ this)

/-! ## alignment -/

/-- **heap_room**: the heap of a set has the size asked for and room for what the lists of the schema
declare, and is less than 512 bytes larger than that -/
theorem heap_room {w : W} {i s heap : Nat} {l : Layout} (hc : setCreate w i s heap = some l) :
    heap ≤ l.heapSz ∧
    ((w.metrics.filter fun m => m.type = 23).map fun m => if m.count = 0 then 512 else m.count).sum ≤ l.heapSz ∧
    l.heapSz % 512 = 0 ∧
    (l.heapSz < heap + 512 ∨ l.heapSz <
      ((w.metrics.filter fun m => m.type = 23).map fun m => if m.count = 0 then 512 else m.count).sum + 512) := by
  have hl : l.heapSz = heapSize w heap := by
    simp only [setCreate] at hc
    split at hc
    · cases hc
    · cases hc; rfl
  have hsum : ∀ ms : List Met,
      (ms.map fun m => if m.type = vList then (if m.count = 0 then 512 else m.count) else 0).sum =
      ((ms.filter fun m => m.type = 23).map fun m => if m.count = 0 then 512 else m.count).sum := by
    intro ms
    induction ms with
    | nil => rfl
    | cons m ms ih =>
      by_cases h : m.type = 23
      · simp only [List.map_cons, List.sum_cons, vList, h, if_true, List.filter_cons, decide_true] at ih ⊢
        rw [ih]
      · simp only [List.map_cons, List.sum_cons, vList, h, if_false, List.filter_cons, decide_false, Nat.zero_add,
          Bool.false_eq_true] at ih ⊢
        rw [ih]
  rw [hl, ← hsum]
  simp only [heapSize]
  generalize (w.metrics.map fun m => if m.type = vList then (if m.count = 0 then 512 else m.count) else 0).sum = h
  omega

theorem valueSize_mod8 {t c n : Nat} (h : valueSize t c = some n) : n % 8 = 0 := by
  unfold valueSize at h
  cases hr : rawSize t c with
  | none => rw [hr] at h; cases h
  | some k =>
    rw [hr] at h
    simp only [Option.map_some, Option.some.injEq] at h
    rw [← h]; exact roundup8_mod k

theorem getD_mod8 (t c : Nat) : (valueSize t c).getD 0 % 8 = 0 := by
  cases h : valueSize t c with
  | none => rfl
  | some n => exact valueSize_mod8 h

theorem dataSz_mod8 {recs : List Rec} {m : Met} (h : MetOk recs m) (hd : m.isData = true) : m.dataSz % 8 = 0 := by
  cases hk : m.kind with
  | plain => exact valueSize_mod8 (h.plain hk).1
  | record r => rw [(h.record r hk).2.1] at hd; cases hd
  | recArray i t => rw [(h.recArray i t hk).2.2]; exact roundup8_mod _

theorem metOk_data {recs : List Rec} {m : Met} (h : MetOk recs m) (ht : m.type = vRecordArray)
    (hk : m.kind ≠ .plain) : m.isData = true := by
  cases hk' : m.kind with
  | plain => exact absurd hk' hk
  | record r => rw [(h.record r hk').1] at ht; cases ht
  | recArray i t => exact (h.recArray i t hk').2.1

theorem dataLoop_mod8 {recs : List Rec} (ms : List Met) (hok : ∀ m ∈ ms, MetOk recs m)
    (hp : ∀ m ∈ ms, m.type = vRecordArray → m.kind ≠ .plain) (off : Nat) (ho : off % 8 = 0) :
    ∀ o, some o ∈ dataLoop ms off → o % 8 = 0 := by
  induction ms generalizing off with
  | nil => intro o h; cases h
  | cons m ms ih =>
    intro o h
    have hm := hok m List.mem_cons_self
    rcases List.mem_cons.1 h with h | h
    · split at h
      · cases h; exact ho
      · cases h
    · refine ih (fun x hx => hok x (List.mem_cons_of_mem _ hx)) (fun x hx => hp x (List.mem_cons_of_mem _ hx)) _ ?_ o h
      have h1 := getD_mod8 m.type m.count
      have h2 : (if m.type = vRecordArray then m.count * m.dataSz else 0) % 8 = 0 := by
        split
        · rename_i ht
          have := dataSz_mod8 hm (metOk_data hm ht (hp m List.mem_cons_self ht))
          rw [Nat.mul_mod, this, Nat.mul_zero, Nat.zero_mod]
        · rfl
      split <;> omega

/-- *Values in the data part are aligned on eight bytes*, in every data copy (of a set that is itself
aligned), whatever the schema. -/
theorem data_aligned {w : W} (hw : Reach Complete w) {i s heap : Nat} {l : Layout}
    (hc : setCreate w i s heap = some l) (k o : Nat) (ho : some o ∈ l.dataVal) :
    (l.metaSz + k * l.stride + o) % 8 = 0 := by
  have hi := reach_inv hw
  unfold setCreate at hc
  split at hc
  · cases hc
  · rename_i hp
    simp only [Option.some.injEq] at hc
    have h1 : l.metaSz % 8 = 0 := by rw [← hc]; exact roundup8_mod _
    have h2 : l.stride % 8 = 0 := by
      rw [← hc]
      show (w.dataSz + heapSize w heap) % 8 = 0
      have h3 : (w.metrics.map dataPart).sum % 8 = 0 := by
        refine sum_mod8 fun m hm => ?_
        unfold dataPart
        split
        · rename_i hd; exact dataSz_mod8 (hi.ok m hm) hd
        · rfl
      have h4 := hi.dataSz
      unfold heapSize
      dsimp only
      omega
    have h3 : o % 8 = 0 := by
      rw [← hc] at ho
      obtain ⟨a, ha, e⟩ := List.mem_map.1 ho
      cases a with
      | none => cases e
      | some a =>
        simp only [Option.map_some, Option.some.injEq] at e
        have := dataLoop_mod8 w.metrics hi.ok (fun m hm ht hk => hp (by
          rw [List.any_eq_true]; exact ⟨m, hm, by simp [ht, hk]⟩)) 96 rfl a ha
        rw [← e, trunc]
        omega
    have h4 : k * l.stride % 8 = 0 := by rw [Nat.mul_mod, h2, Nat.mul_zero, Nat.zero_mod]
    omega

/-- every record of the schema has an even number of members -/
def EvenRecords (w : W) : Prop := ∀ rc ∈ w.recs, rc.members.length % 2 = 0

theorem typeSz_mod8 {ms : List Mem} (h : ∀ m ∈ ms, m.metaSz % 8 = 0) : typeSz ms % 8 = 4 * ms.length % 8 := by
  induction ms with
  | nil => rfl
  | cons m ms ih =>
    have h1 := h m List.mem_cons_self
    have h2 := ih fun x hx => h x (List.mem_cons_of_mem _ hx)
    unfold typeSz at h2 ⊢
    simp only [List.map_cons, List.sum_cons, List.length_cons]
    omega

theorem metaLoop_mod8 {w : W} (hw : Inv w) (he : EvenRecords w) (ms : List Met) (hs : ∀ m ∈ ms, m ∈ w.metrics)
    (off : Nat) (ho : off % 8 = 0) : ∀ o, some o ∈ metaLoop w.recs ms off → o % 8 = 0 := by
  induction ms generalizing off with
  | nil => intro o h; cases h
  | cons m ms ih =>
    intro o h
    have hm := hw.ok m (hs m List.mem_cons_self)
    rcases List.mem_cons.1 h with h | h
    · split at h
      · cases h
      · cases h; exact ho
    · refine ih (fun x hx => hs x (List.mem_cons_of_mem _ hx)) _ ?_ o h
      split
      · omega
      · rename_i hd
        rw [metaSize_eq hm (by simpa using hd)]
        cases hk : m.kind with
        | plain => have := valueSize_mod8 (hm.plain hk).1; omega
        | record r =>
          obtain ⟨_, _, rc, hr, _, hs⟩ := hm.record r hk
          have hmem := List.mem_of_getElem? hr
          have h1 := typeSz_mod8 (hw.meta4 rc hmem)
          have h2 := he rc hmem
          rw [hs, recDataSz]
          omega
        | recArray i t => rw [(hm.recArray i t hk).2.1] at hd; exact absurd rfl hd

/-- *Values in the meta data are aligned on eight bytes* if the records have even numbers of members.
Otherwise it is false (`meta_misaligned_defect`). -/
theorem meta_aligned_partial {w : W} (hw : Reach Complete w) (he : EvenRecords w) {i s heap : Nat} {l : Layout}
    (hc : setCreate w i s heap = some l) (o : Nat) (ho : some o ∈ l.metaVal) : o % 8 = 0 := by
  have hi := reach_inv hw
  unfold setCreate at hc
  split at hc
  · cases hc
  · simp only [Option.some.injEq] at hc
    rw [← hc] at ho
    obtain ⟨a, ha, e⟩ := List.mem_map.1 ho
    cases a with
    | none => cases e
    | some a =>
      simp only [Option.map_some, Option.some.injEq] at e
      have := metaLoop_mod8 hi he w.metrics (fun _ h => h) _ (roundup8_mod _) a ha
      rw [← e, trunc]
      omega

/-! ## records -/

/-- *The members of a record instance never share a byte and lie inside the instance*, after its header
of 16 bytes. -/
theorem members_disjoint (ms : List Mem) (hms : ∀ m ∈ ms, valueSize m.type m.count = some m.dataSz) :
    let offs := memLoop ms 16
    offs.length = ms.length ∧
    ∀ (a b : Nat) ma mb oa ob, ms[a]? = some ma → ms[b]? = some mb → offs[a]? = some oa → offs[b]? = some ob →
      16 ≤ oa ∧ oa + ma.dataSz ≤ instSz ms ∧ oa % 8 = 0 ∧ (a < b → oa + ma.dataSz ≤ ob) := by
  have key : ∀ (ms : List Mem) (off : Nat), (∀ m ∈ ms, valueSize m.type m.count = some m.dataSz) →
      off % 8 = 0 → (memLoop ms off).length = ms.length ∧
      ∀ (a : Nat) ma oa, ms[a]? = some ma → (memLoop ms off)[a]? = some oa →
        off ≤ oa ∧ oa + ma.dataSz ≤ off + (ms.map (·.dataSz)).sum ∧ oa % 8 = 0 ∧
        ∀ (b : Nat) ob, a < b → (memLoop ms off)[b]? = some ob → oa + ma.dataSz ≤ ob := by
    intro ms
    induction ms with
    | nil => intro off _ _; exact ⟨rfl, fun a ma oa h => by simp at h⟩
    | cons m ms ih =>
      intro off hms ho
      have hm := hms m List.mem_cons_self
      have hm8 := valueSize_mod8 hm
      obtain ⟨l, r⟩ := ih (off + m.dataSz) (fun x hx => hms x (List.mem_cons_of_mem _ hx)) (by omega)
      have hrw : memLoop (m :: ms) off = off :: memLoop ms (off + m.dataSz) := by
        rw [memLoop, hm]; rfl
      rw [hrw]
      refine ⟨by simp [l], ?_⟩
      intro a ma oa ha hoa
      simp only [List.map_cons, List.sum_cons]
      cases a with
      | zero =>
        simp only [List.getElem?_cons_zero, Option.some.injEq] at ha hoa
        subst ha; subst hoa
        refine ⟨Nat.le_refl _, by omega, ho, ?_⟩
        intro b ob hb hob
        cases b with
        | zero => omega
        | succ b =>
          simp only [List.getElem?_cons_succ] at hob
          have hlt : b < ms.length := by
            rw [← l]; exact (List.getElem?_eq_some_iff.1 hob).1
          exact (r b ms[b] ob (by rw [List.getElem?_eq_getElem hlt]) hob).1
      | succ a =>
        simp only [List.getElem?_cons_succ] at ha hoa
        obtain ⟨x, y, z, t⟩ := r a ma oa ha hoa
        refine ⟨by omega, by omega, z, ?_⟩
        intro b ob hb hob
        cases b with
        | zero => omega
        | succ b => exact t b ob (by omega) hob
  obtain ⟨l, r⟩ := key ms 16 hms rfl
  refine ⟨l, ?_⟩
  intro a b ma mb oa ob ha hb hoa hob
  obtain ⟨x, y, z, t⟩ := r a ma oa ha hoa
  exact ⟨x, y, z, fun hab => t b ob hab hob⟩

/-- *The instances of a record array never share a byte and lie inside the value of the array*. -/
theorem instances_disjoint (len inst : Nat) :
    (∀ j < len, 12 ≤ 12 + j * inst ∧ 12 + j * inst + inst ≤ 12 + len * inst) ∧
    ∀ j k, j < k → 12 + j * inst + inst ≤ 12 + k * inst := by
  have h : ∀ j k, j < k → j * inst + inst ≤ k * inst := by
    intro j k hjk
    rw [← Nat.succ_mul]
    exact Nat.mul_le_mul_right _ hjk
  refine ⟨fun j hj => ⟨Nat.le_add_right _ _, ?_⟩, fun j k hjk => ?_⟩
  · have := h j len hj; omega
  · have := h j k hjk; omega

/-! ## non-vacuity -/

/-- run calls that must all succeed -/
def build (w : W) : List Op → Option W
  | [] => some w
  | op :: ops => match apply w op with
    | none => none
    | some (w', rc) => if rc < 0 then none else build w' ops

/-- the calls do not add members to records that are in the schema -/
def completeB (w : W) : Op → Bool
  | .member r _ _ _ _ => (w.recs[r]?.map fun rc => rc.metricId.isNone).getD true
  | _ => true

def buildC (w : W) : List Op → Option W
  | [] => some w
  | op :: ops => if completeB w op then
      match apply w op with
      | none => none
      | some (w', rc) => if rc < 0 then none else buildC w' ops
    else none

theorem complete_of_b {w : W} {op : Op} (h : completeB w op = true) : Complete w op := by
  cases op <;> try trivial
  intro rc hr
  rw [completeB, hr] at h
  cases hx : rc.metricId with
  | none => rfl
  | some x => simp [hx] at h

theorem build_reach {ops : List Op} {w w' : W} (hw : Reach (fun _ _ => True) w) (h : build w ops = some w') :
    Reach (fun _ _ => True) w' := by
  induction ops generalizing w with
  | nil => cases h; exact hw
  | cons op ops ih =>
    rw [build] at h
    split at h
    · cases h
    · rename_i ha
      split at h
      · cases h
      · exact ih (.step hw trivial ha) h

theorem buildC_reach {ops : List Op} {w w' : W} (hw : Reach Complete w) (h : buildC w ops = some w') :
    Reach Complete w' := by
  induction ops generalizing w with
  | nil => cases h; exact hw
  | cons op ops ih =>
    rw [buildC] at h
    split at h
    · rename_i hc
      split at h
      · cases h
      · rename_i ha
        split at h
        · cases h
        · exact ih (.step hw (complete_of_b hc) ha) h
    · cases h

/-- a schema with data and meta metrics, arrays, a list, a record and a record array, in two copies:
the hypotheses of the theorems are met -/
def sample : List Op :=
  [.metric (some [97]) none 8, .metaMetric (some [98]) (some [115]) 6, .recordNew [114],
    .member 0 [120] none 8 1, .member 0 [121] (some [115]) 14 5, .record 0, .metricArray (some [99]) none 17 3,
    .list (some [108]) none 0, .card 2, .recordArray [100] 0 4]

example : ∃ w l, Reach Complete w ∧ ArraysLast w.metrics ∧ EvenRecords w ∧ setCreate w 20 10 0 = some l ∧
    l.total < 2 ^ 32 ∧ (regs w 20 10 l).length = 29 := by
  have h : ∃ w, buildC W.new sample = some w := ⟨_, rfl⟩
  refine ⟨_, _, buildC_reach .new (ops := sample) rfl, ?_, ?_, rfl, ?_, ?_⟩
  · refine ⟨?_, ?_, ?_, ?_, ?_, ?_, trivial⟩ <;> decide
  · unfold EvenRecords; decide
  · decide
  · decide

/-! ## defects -/

/-- **Defect**: `value_off` is advanced by the length of a record array times the size of the whole
array.  A metric after a record array of two instances is placed outside the set. -/
theorem record_array_overflow_defect :
    ∃ w l r, Reach Complete w ∧ setCreate w 4 4 0 = some l ∧ r ∈ regs w 4 4 l ∧ r.item = .dataVal 0 2 ∧
      l.total < r.lo := by
  refine ⟨_, _, ⟨.dataVal 0 2, 624, 632⟩, buildC_reach .new (ops := [.recordNew [114], .member 0 [120] none 8 1,
    .record 0, .recordArray [97] 0 2, .metric (some [98]) none 8]) rfl, rfl, ?_, rfl, ?_⟩
  · decide
  · decide

/-- **Defect**: the length of the instance name is kept in a byte.  With a name of 255 bytes, which the
limit `LDMS_SET_NAME_MAX` allows, the schema name overwrites the instance name. -/
theorem long_instance_name_defect :
    ∃ w l, Reach Complete w ∧ setCreate w 255 4 0 = some l ∧
      ∃ a ∈ regs w 255 4 l, ∃ b ∈ regs w 255 4 l, a.item = .inst ∧ b.item = .schema ∧ a.lo < b.lo ∧ b.lo < a.hi :=
  ⟨_, _, buildC_reach .new (ops := [.metric (some [98]) none 8]) rfl, rfl, ⟨.inst, 144, 401⟩, by decide,
    ⟨.schema, 145, 183⟩, by decide, rfl, rfl, by decide, by decide⟩

/-- **Defect**: the length of the schema name and digest is kept in a byte.  With a schema name of 222
bytes the first descriptor overwrites the schema name. -/
theorem long_schema_name_defect :
    ∃ w l, Reach Complete w ∧ setCreate w 4 222 0 = some l ∧
      ∃ a ∈ regs w 4 222 l, ∃ b ∈ regs w 4 222 l, a.item = .schema ∧ b.item = .desc 0 ∧ a.lo < b.lo ∧ b.lo < a.hi :=
  ⟨_, _, buildC_reach .new (ops := [.metric (some [98]) none 8]) rfl, rfl, ⟨.schema, 150, 406⟩, by decide,
    ⟨.desc 0, 152, 181⟩, by decide, rfl, rfl, by decide, by decide⟩

/-- **Defect**: a member is added to a record that is already in the schema, which
`ldms_record_metric_add` provides for.  The meta data is then four bytes too short and the end of the
record type, with the name of its last member, shares its bytes with the first data header. -/
theorem late_member_overlap_defect :
    ∃ w l, Reach (fun _ _ => True) w ∧ setCreate w 4 8 0 = some l ∧ l.copies = 1 ∧
      ∃ a ∈ regs w 4 8 l, ∃ b ∈ regs w 4 8 l, a.item = .metaVal 0 ∧ b.item = .dataHdr 0 ∧
        b.lo < a.lo + 16 + 4 + 27 + nameUnit [97, 98, 99] none ∧
        w.recs.map (·.members.map (·.name)) = [[[97, 98, 99]]] :=
  ⟨_, _, build_reach .new (ops := [.recordNew [114], .record 0, .member 0 [97, 98, 99] none 8 1]) rfl, rfl, rfl,
    ⟨.metaVal 0, 232, 284⟩, by decide, ⟨.dataHdr 0, 280, 376⟩, by decide, rfl, rfl, by decide, rfl⟩

/-- **Defect**: a record array keeps the instance size that the record has when the array is added.  A
member added later lies outside the instances of the array. -/
theorem late_member_array_defect :
    ∃ w rc m, Reach (fun _ _ => True) w ∧ w.recs[0]? = some rc ∧ w.metrics[1]? = some m ∧ m.kind = .recArray 24 0 ∧
      (memLoop rc.members 16)[1]? = some 24 :=
  ⟨_, _, _, build_reach .new (ops := [.recordNew [114], .member 0 [120] none 8 1, .record 0, .recordArray [97] 0 2,
    .member 0 [121] none 8 1]) rfl, rfl, rfl, rfl, rfl⟩

/-- **Defect**: the size of a record type is not rounded: a meta metric that follows a record with one
member is not aligned on eight bytes. -/
theorem meta_misaligned_defect :
    ∃ w l o, Reach Complete w ∧ setCreate w 4 4 0 = some l ∧ l.metaVal[1]? = some (some o) ∧ o % 8 = 4 :=
  ⟨_, _, _, buildC_reach .new (ops := [.recordNew [114], .member 0 [120] none 8 1, .record 0,
    .metaMetric (some [98]) none 8]) rfl, rfl, rfl, rfl⟩

/-- **Defect**: the instances of a record array begin 12 bytes after the array, which is aligned: no
member of an instance is aligned on eight bytes. -/
theorem record_array_misaligned_defect (base : Nat) (hb : base % 8 = 0) (ms : List Mem)
    (hms : ∀ m ∈ ms, valueSize m.type m.count = some m.dataSz) (j a : Nat) {m : Mem} {o : Nat}
    (ha : ms[a]? = some m) (ho : (memLoop ms 16)[a]? = some o) :
    (base + (12 + j * instSz ms) + o) % 8 = 4 := by
  have h1 := ((members_disjoint ms hms).2 a a m m o o ha ha ho ho).2.2.1
  have h2 : instSz ms % 8 = 0 := by
    unfold instSz
    have : ∀ l : List Mem, (∀ m ∈ l, valueSize m.type m.count = some m.dataSz) → (l.map (·.dataSz)).sum % 8 = 0 := by
      intro l
      induction l with
      | nil => intro _; rfl
      | cons x xs ih =>
        intro h
        have h1 := valueSize_mod8 (h x List.mem_cons_self)
        have h2 := ih fun y hy => h y (List.mem_cons_of_mem _ hy)
        simp only [List.map_cons, List.sum_cons]; omega
    have := this ms hms
    omega
  have h3 : j * instSz ms % 8 = 0 := by rw [Nat.mul_mod, h2, Nat.mul_zero, Nat.zero_mod]
  omega

/-- **Defect**: a metric of record array type that is not made by `ldms_schema_record_array_add` is
accepted by `ldms_schema_metric_add`, and a set made from the schema reads beyond its definition. -/
theorem record_array_type_defect :
    ∃ w, Reach Complete w ∧ w.metrics.length = 1 ∧ ∀ i s heap, setCreate w i s heap = none :=
  ⟨_, buildC_reach .new (ops := [.metric (some [98]) none 27]) rfl, rfl, fun _ _ _ => rfl⟩

/-- **Defect**: the same for a record type, already when it is added. -/
theorem record_type_defect : apply W.new (.metaMetric (some [98]) none 25) = none := rfl

end Verif.Layout
