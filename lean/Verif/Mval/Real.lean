import Verif.Mval.Proofs
import Verif.Layout.Props

/-!
# The sets of the layout model have room for their values

The theorems about values ask that no two values share a byte.  Here: the sets made by
`ldms_set_new` from a schema, as modelled for C22, are such.
-/

namespace Verif.Mval

open Schema Layout

/-- The type of the values or elements of a type number, ldms_core.h:230-262. -/
def tyOf : Nat → Option Ty
  | 1 | 12 => some .char
  | 2 | 13 => some .u8
  | 3 | 14 => some .s8
  | 4 | 15 => some .u16
  | 5 | 16 => some .s16
  | 6 | 17 => some .u32
  | 7 | 18 => some .s32
  | 8 | 19 => some .u64
  | 9 | 20 => some .s64
  | 10 | 21 => some .f32
  | 11 | 22 => some .d64
  | _ => none

/-- `ldms_type_is_array`, ldms.c:2235-2238. -/
def isArray (t : Nat) : Bool := decide (12 ≤ t ∧ t ≤ 22)

/-- The descriptor of a metric at an offset. -/
def descOf (recs : List Rec) (m : Met) (off : Nat) : Desc :=
  ⟨tyOf m.type, isArray m.type, m.isData, off, m.count, valueBytes recs m⟩

/-- The descriptors of a set, ldms.c `__set_array_new`-`__ldms_init_metric`, modelled in `Verif.Schema`. -/
def descsOf (w : W) (l : Schema.Layout) : List Desc :=
  w.metrics.mapIdx fun j m => descOf w.recs m (((if m.isData then l.dataVal[j]? else l.metaVal[j]?).join).getD 0)

/-- A set of the schema, `k` the current copy of the ring and `k'` that before it. -/
def setOf (w : W) (l : Schema.Layout) (k k' : Nat) (mem : Nat → Nat) (inTxn : Bool) (mg dmg dg : Nat) : S :=
  ⟨mem, descsOf w l, l.metaSz + k * l.stride, l.metaSz + k' * l.stride, inTxn, mg, dmg, dg⟩

theorem width_elem (t : Nat) (e : Ty) (h : tyOf t = some e) :
    plainBytes t n = (if isArray t then n else 1) * e.width ∧ t ≤ 22 := by
  unfold tyOf at h
  split at h <;> simp_all <;> subst h <;> simp [plainBytes, isArray, elemBytes, Ty.width]

theorem pairwise_ne {α} {R : α → α → Prop} {l : List α} (h : l.Pairwise R) {a b : α} (ha : a ∈ l) (hb : b ∈ l)
    (hne : a ≠ b) : R a b ∨ R b a := by
  induction l with
  | nil => cases ha
  | cons x xs ih =>
    rw [List.pairwise_cons] at h
    rcases List.mem_cons.1 ha with ea | ha'
    · rcases List.mem_cons.1 hb with eb | hb'
      · exact absurd (ea.trans eb.symm) hne
      · exact Or.inl (ea ▸ h.1 b hb')
    · rcases List.mem_cons.1 hb with eb | hb'
      · exact Or.inr (eb ▸ h.1 a ha')
      · exact ih h.2 ha' hb'

/-- Where the value of the `j`-th metric is. -/
theorem desc_reg {w : W} {i s heap : Nat} {l : Schema.Layout} (hc : setCreate w i s heap = some l) {j : Nat} {d : Desc}
    (hd : (descsOf w l)[j]? = some d) : ∃ m, w.metrics[j]? = some m ∧ d = descOf w.recs m d.off ∧
      (m.isData = false → ⟨.metaVal j, d.off, d.off + d.size⟩ ∈ valRegs w.recs .metaVal 0 0 w.metrics l.metaVal) ∧
      (m.isData = true → ∀ k, ⟨.dataVal k j, l.metaSz + k * l.stride + d.off, l.metaSz + k * l.stride + d.off + d.size⟩ ∈
        valRegs w.recs (.dataVal k) (l.metaSz + k * l.stride) 0 w.metrics l.dataVal) := by
  unfold descsOf at hd
  rw [List.getElem?_mapIdx] at hd
  cases hm : w.metrics[j]? with
  | none => simp [hm] at hd
  | some m =>
    simp only [hm, Option.map_some, Option.some.injEq] at hd
    refine ⟨m, rfl, by rw [← hd]; rfl, ?_, ?_⟩
    all_goals
      unfold setCreate at hc
      split at hc
      · cases hc
    · simp only [Option.some.injEq] at hc
      intro h
      obtain ⟨o, ho⟩ := metaLoop_some (recs := w.recs) hm
        (roundup8 (firstDesc w i s + (w.metrics.map (·.metaSz)).sum))
      rw [h] at ho
      have hv : l.metaVal[j]? = some (some (trunc o)) := by
        rw [← hc]
        show (List.map _ _)[j]? = _
        rw [List.getElem?_map, ho]; rfl
      have := valRegs_mem (recs := w.recs) (tag := .metaVal) (base := 0) hm hv 0
      rw [Nat.zero_add, Nat.zero_add] at this
      simp only [h, Bool.false_eq_true, if_false, hv, Option.join_some, Option.getD_some] at hd
      subst hd
      exact this
    · simp only [Option.some.injEq] at hc
      intro h k
      obtain ⟨o, ho⟩ := dataLoop_some hm 96
      rw [h] at ho
      have hv : l.dataVal[j]? = some (some (trunc o)) := by
        rw [← hc]
        show (List.map _ _)[j]? = _
        rw [List.getElem?_map, ho]; rfl
      have := valRegs_mem (recs := w.recs) (tag := .dataVal k) (base := l.metaSz + k * l.stride) hm hv 0
      rw [Nat.zero_add] at this
      simp only [h, if_true, hv, Option.join_some, Option.getD_some] at hd
      subst hd
      exact this

/-- **C70**: the sets made from schemas are such that values do not share bytes, so that the theorems
about values hold for them.  As for C22 this is for complete records, record arrays last, names that
are not too long and sets of less than 4 GiB. -/
theorem mval_laid_partial {w : W} (hw : Reach Complete w) (hl : ArraysLast w.metrics) {i s heap : Nat}
    {l : Schema.Layout} (hc : setCreate w i s heap = some l) (hi : i ≤ 254) (hs : s ≤ 221) (ht : l.total < 2 ^ 32)
    {k k' : Nat} (hk : k < l.copies) (hk' : k' < l.copies) (mem : Nat → Nat) (inTxn : Bool) (mg dmg dg : Nat) :
    Laid (setOf w l k k' mem inTxn mg dmg dg) l.stride := by
  obtain ⟨hp, hb⟩ := layout_disjoint_partial hw hl hc hi hs ht
  have hok := (reach_inv hw).ok
  unfold regs at hp hb
  rw [List.pairwise_cons, List.pairwise_append, List.pairwise_cons, List.pairwise_cons, List.pairwise_append,
    List.pairwise_append] at hp
  obtain ⟨_, _, ⟨_, _, _, ⟨hpm, hpd, hmd⟩, _⟩, _⟩ := hp
  have hcopy : ∀ c < l.copies, (copyRegs w l c).Pairwise fun a b => a.hi ≤ b.lo := by
    intro c hc
    rw [List.pairwise_flatMap] at hpd
    exact hpd.1 c (List.mem_range.2 hc)
  refine ⟨?_, ?_, ?_, ?_, ?_⟩
  · intro d hd t ht
    obtain ⟨j, hj⟩ := List.mem_iff_getElem?.1 hd
    obtain ⟨m, hm, e, -⟩ := desc_reg hc hj
    have hmo := hok m (List.mem_of_getElem? hm)
    rw [e] at ht ⊢
    simp only [descOf] at ht ⊢
    obtain ⟨w1, w2⟩ := width_elem (n := m.count) m.type t ht
    refine Eq.trans ?_ w1
    unfold valueBytes
    cases hkd : m.kind with
    | plain => rfl
    | record r => have := (hmo.record r hkd).1; rw [this] at w2; simp [vRecordType] at w2
    | recArray x y => have := (hmo.recArray x y hkd).1; rw [this] at w2; simp [vRecordArray] at w2
  · intro a b da db ha hb' hne he
    obtain ⟨ma, hma, ea, fa, ga⟩ := desc_reg hc ha
    obtain ⟨mb, hmb, eb, fb, gb⟩ := desc_reg hc hb'
    have ia : da.isData = ma.isData := by rw [ea]; rfl
    have ib : db.isData = mb.isData := by rw [eb]; rfl
    cases hd : ma.isData with
    | false =>
      have hd' : mb.isData = false := by rw [← ib, ← he, ia, hd]
      have := pairwise_ne hpm (fa hd) (fb hd') (by intro h; simp only [Reg.mk.injEq, Item.metaVal.injEq] at h; exact hne h.1)
      simpa using this
    | true =>
      have hd' : mb.isData = true := by rw [← ib, ← he, ia, hd]
      have hcp := hcopy k hk
      unfold copyRegs at hcp
      rw [List.pairwise_cons, List.pairwise_append] at hcp
      have := pairwise_ne hcp.2.1 (ga hd k) (gb hd' k)
        (by intro h; simp only [Reg.mk.injEq, Item.dataVal.injEq] at h; exact hne h.1.2)
      dsimp only at this
      omega
  · intro d hd hm
    obtain ⟨j, hj⟩ := List.mem_iff_getElem?.1 hd
    obtain ⟨m, _, e, f, -⟩ := desc_reg hc hj
    have im : m.isData = false := by rw [← hm, e]; rfl
    have hdr : ∀ c < l.copies, (⟨.dataHdr c, l.metaSz + c * l.stride, l.metaSz + c * l.stride + 96⟩ : Reg) ∈
        (List.range l.copies).flatMap (copyRegs w l) := fun c hc =>
      List.mem_flatMap.2 ⟨c, List.mem_range.2 hc, List.mem_cons_self⟩
    exact ⟨hmd _ (f im) _ (hdr k hk), hmd _ (f im) _ (hdr k' hk')⟩
  · intro d hd hm
    obtain ⟨j, hj⟩ := List.mem_iff_getElem?.1 hd
    obtain ⟨m, _, e, -, g⟩ := desc_reg hc hj
    have im : m.isData = true := by rw [← hm, e]; rfl
    have hcp := hcopy k hk
    unfold copyRegs at hcp
    rw [List.pairwise_cons, List.pairwise_append] at hcp
    have h1 := hcp.2.2.2 _ (g im k) _ (List.mem_singleton.2 rfl)
    have h2 := hb ⟨.heap k, l.metaSz + k * l.stride + (l.stride - l.heapSz), l.metaSz + k * l.stride + l.stride⟩ (by
      refine List.mem_cons_of_mem _ (List.mem_append_right _ (List.mem_cons_of_mem _ (List.mem_cons_of_mem _
          (List.mem_append_right _ (List.mem_append_right _ ?_)))))
      rw [List.mem_flatMap]
      refine ⟨k, List.mem_range.2 hk, ?_⟩
      exact List.mem_cons_of_mem _ (List.mem_append_right _ (List.mem_singleton.2 rfl)))
    dsimp only at h1 h2
    omega
  · show l.metaSz + k' * l.stride = l.metaSz + k * l.stride ∨ _
    rcases Nat.lt_trichotomy k k' with h | h | h
    · have := Nat.mul_le_mul_right l.stride h
      rw [Nat.succ_mul] at this
      refine Or.inr (Or.inr ?_)
      show l.metaSz + k * l.stride + l.stride ≤ l.metaSz + k' * l.stride
      omega
    · exact Or.inl (by rw [h])
    · have := Nat.mul_le_mul_right l.stride h
      rw [Nat.succ_mul] at this
      refine Or.inr (Or.inl ?_)
      show l.metaSz + k' * l.stride + l.stride ≤ l.metaSz + k * l.stride
      omega

/-- The members of a record as descriptors. -/
def membersOf (ms : List Mem) : List Desc :=
  ms.mapIdx fun j m => ⟨tyOf m.type, isArray m.type, true, ((memLoop ms 16)[j]?).getD 0, m.count, plainBytes m.type m.count⟩

/-- **C70**: so are the members of instances of records. -/
theorem mval_laid_record (ms : List Mem) (hms : ∀ m ∈ ms, valueSize m.type m.count = some m.dataSz) (mem : Nat → Nat)
    (base gn : Nat) : LaidR ⟨mem, base, membersOf ms, gn⟩ := by
  obtain ⟨hlen, hdis⟩ := members_disjoint ms hms
  have size_le : ∀ m ∈ ms, plainBytes m.type m.count ≤ m.dataSz := by
    intro m hm
    have := hms m hm
    unfold valueSize at this
    rw [← rawSize_plain]
    cases hr : rawSize m.type m.count with
    | none => simp
    | some n =>
      rw [hr] at this
      simp only [Option.map_some, Option.some.injEq] at this
      simp only [Option.getD_some]
      have := roundup8_ge n
      omega
  have key : ∀ (j : Nat) d, (membersOf ms)[j]? = some d → ∃ m o, ms[j]? = some m ∧ (memLoop ms 16)[j]? = some o ∧
      d = ⟨tyOf m.type, isArray m.type, true, o, m.count, plainBytes m.type m.count⟩ := by
    intro j d hd
    unfold membersOf at hd
    rw [List.getElem?_mapIdx] at hd
    cases hm : ms[j]? with
    | none => simp [hm] at hd
    | some m =>
      have hj : j < (memLoop ms 16).length := by rw [hlen]; exact (List.getElem?_eq_some_iff.1 hm).1
      refine ⟨m, (memLoop ms 16)[j], rfl, List.getElem?_eq_getElem hj, ?_⟩
      simp only [hm, Option.map_some, Option.some.injEq, List.getElem?_eq_getElem hj, Option.getD_some] at hd
      exact hd.symm
  constructor
  · intro d hd t ht
    obtain ⟨j, hj⟩ := List.mem_iff_getElem?.1 hd
    obtain ⟨m, o, hm, _, e⟩ := key j d hj
    subst e
    exact (width_elem m.type t ht).1
  · intro a b da db ha hb hne
    obtain ⟨ma, oa, hma, hoa, ea⟩ := key a da ha
    obtain ⟨mb, ob, hmb, hob, eb⟩ := key b db hb
    subst ea eb
    have s1 := size_le ma (List.mem_of_getElem? hma)
    have s2 := size_le mb (List.mem_of_getElem? hmb)
    dsimp only
    rcases Nat.lt_or_gt_of_ne hne with h | h
    · have := (hdis a b ma mb oa ob hma hmb hoa hob).2.2.2 h
      omega
    · have := (hdis b a mb ma ob oa hmb hma hob hoa).2.2.2 h
      omega

end Verif.Mval
