import Verif.Schema.Model

/-!
# Invariants of schemas, and chains of regions
-/

namespace Verif.Schema

/-! ## histories -/

inductive Op where
  | metric (name unit : Option Str) (t : Nat)
  | metaMetric (name unit : Option Str) (t : Nat)
  | metricArray (name unit : Option Str) (t count : Nat)
  | metaArray (name unit : Option Str) (t count : Nat)
  | list (name unit : Option Str) (heapSz : Nat)
  | recordNew (name : Str)
  | member (r : Nat) (name : Str) (unit : Option Str) (t count : Nat)
  | record (r : Nat)
  | recordArray (name : Str) (r len : Nat)
  | card (n : Nat)
  deriving DecidableEq, Repr

/-- one call: the schema after it and its result -/
def apply (w : W) : Op → Option (W × Int)
  | .metric n u t => metricAdd w n u t
  | .metaMetric n u t => metaAdd w n u t
  | .metricArray n u t c => metricArrayAdd w n u t c
  | .metaArray n u t c => metaArrayAdd w n u t c
  | .list n u h => metricListAdd w n u h
  | .recordNew n => some (recordCreate w n, 0)
  | .member r n u t c => recordMetricAdd w r n u t c
  | .record r => recordAdd w r
  | .recordArray n r l => recordArrayAdd w n r l
  | .card n => some (arrayCardSet w n, 0)

/-- the call does not add a member to a record that is already in the schema -/
def Complete (w : W) : Op → Prop
  | .member r _ _ _ _ => ∀ rc, w.recs[r]? = some rc → rc.metricId = none
  | _ => True

/-- schemas that some calls allowed by `G` lead to -/
inductive Reach (G : W → Op → Prop) : W → Prop
  | new : Reach G W.new
  | step {w w' : W} {op : Op} {rc : Int} : Reach G w → G w op → apply w op = some (w', rc) → Reach G w'

/-! ## the metrics of a schema -/

/-- what a metric of a schema looks like -/
structure MetOk (recs : List Rec) (m : Met) : Prop where
  meta8 : m.metaSz % 8 = 0
  meta27 : 27 + nameUnit m.name m.unit ≤ m.metaSz
  plain : m.kind = .plain → valueSize m.type m.count = some m.dataSz ∧ m.type ≠ vRecordType
  record : ∀ r, m.kind = .record r → m.type = vRecordType ∧ m.isData = false ∧
    ∃ rc, recs[r]? = some rc ∧ rc.metricId ≠ none ∧ m.dataSz = recDataSz rc.members
  recArray : ∀ i t, m.kind = .recArray i t → m.type = vRecordArray ∧ m.isData = true ∧
    m.dataSz = roundup8 (12 + m.count * i)

/-- `type_sz`, counted once more by `ldms_schema_record_add` -/
def extra (m : Met) : Nat :=
  match m.kind with
  | .record _ => m.dataSz - 16
  | _ => 0

def metaPart (m : Met) : Nat := if m.isData then 0 else m.dataSz

def dataPart (m : Met) : Nat := if m.isData then m.dataSz else 0

structure Inv (w : W) : Prop where
  ok : ∀ m ∈ w.metrics, MetOk w.recs m
  meta4 : ∀ rc ∈ w.recs, ∀ m ∈ rc.members, m.metaSz % 8 = 0
  metaSz : w.metaSz = 144 + (w.metrics.map fun m => m.metaSz + 4).sum + (w.metrics.map metaPart).sum
    + (w.metrics.map extra).sum
  dataSz : w.dataSz = 96 + (w.metrics.map dataPart).sum

theorem roundup8_mod (n : Nat) : roundup8 n % 8 = 0 := by unfold roundup8; omega

theorem roundup8_ge (n : Nat) : n ≤ roundup8 n := by unfold roundup8; omega

theorem inv_new : Inv W.new :=
  ⟨(fun m h => by cases h), (fun m h => by cases h), rfl, rfl⟩

theorem inv_mdefAdd {w : W} (h : Inv w) {m : Met} (hm : MetOk w.recs m) (he : extra m = 0) :
    Inv (mdefAdd w m).1 := by
  refine ⟨?_, h.meta4, ?_, ?_⟩
  · intro x hx
    rcases List.mem_append.1 hx with hx | hx
    · exact h.ok x hx
    · rw [List.mem_singleton] at hx; subst hx; exact hm
  · show w.metaSz + (m.metaSz + 4) + (if m.isData then 0 else m.dataSz) = _
    rw [h.metaSz]
    simp only [mdefAdd, List.map_append, List.sum_append, List.map_cons, List.map_nil, List.sum_cons, List.sum_nil,
      metaPart, he]
    omega
  · show w.dataSz + (if m.isData then m.dataSz else 0) = _
    rw [h.dataSz]
    simp only [mdefAdd, List.map_append, List.sum_append, List.map_cons, List.map_nil, List.sum_cons, List.sum_nil,
      dataPart]
    omega

theorem metaSize_ok (name : Str) (unit : Option Str) :
    metaSize name unit % 8 = 0 ∧ 27 + nameUnit name unit ≤ metaSize name unit := by
  refine ⟨roundup8_mod _, ?_⟩
  have := roundup8_ge (28 + nameUnit name unit)
  unfold metaSize
  omega

theorem inv_schemaMetricAdd {w w' : W} (h : Inv w) {name unit : Option Str} {d : Bool} {t c : Nat} {rc : Int}
    (ha : schemaMetricAdd w name unit d t c = some (w', rc)) : Inv w' := by
  unfold schemaMetricAdd at ha
  split at ha
  · cases ha; exact h
  · split at ha
    · cases ha; exact h
    · split at ha
      · cases ha; exact h
      · split at ha
        · cases ha
        · rename_i sz hsz
          split at ha
          · cases ha
          · rename_i ht
            injection ha with ha
            have : w' = (mdefAdd w _).1 := (congrArg Prod.fst ha).symm
            rw [this]
            refine inv_mdefAdd h ⟨(metaSize_ok _ _).1, (metaSize_ok _ _).2, (fun _ => ⟨hsz, ht⟩), (fun r e => by cases e),
              fun i t e => by cases e⟩ rfl

theorem MetOk.mono {recs recs' : List Rec} {m : Met} (h : MetOk recs m)
    (hr : ∀ (r : Nat) rc, recs[r]? = some rc → rc.metricId ≠ none → ∃ rc', recs'[r]? = some rc' ∧ rc'.metricId ≠ none ∧
      rc'.members = rc.members) : MetOk recs' m := by
  refine ⟨h.meta8, h.meta27, h.plain, ?_, h.recArray⟩
  intro r hk
  obtain ⟨a, b, rc, c, d, e⟩ := h.record r hk
  obtain ⟨rc', c', d', e'⟩ := hr r rc c d
  exact ⟨a, b, rc', c', d', by rw [e, e']⟩

theorem inv_apply {w w' : W} (h : Inv w) {op : Op} {rc : Int} (hc : Complete w op)
    (ha : apply w op = some (w', rc)) : Inv w' := by
  cases op with
  | metric n u t =>
    rw [apply, metricAdd] at ha
    split at ha
    · cases ha; exact h
    · exact inv_schemaMetricAdd h ha
  | metaMetric n u t =>
    rw [apply, metaAdd] at ha
    split at ha
    · cases ha; exact h
    · exact inv_schemaMetricAdd h ha
  | metricArray n u t c =>
    rw [apply, metricArrayAdd] at ha
    split at ha
    · cases ha; exact h
    · exact inv_schemaMetricAdd h ha
  | metaArray n u t c => exact inv_schemaMetricAdd h ha
  | list n u hs => exact inv_schemaMetricAdd h ha
  | recordNew n =>
    cases ha
    refine ⟨?_, ?_, h.metaSz, h.dataSz⟩
    · intro m hm
      refine (h.ok m hm).mono ?_
      intro r rc hr hid
      refine ⟨rc, ?_, hid, rfl⟩
      show (w.recs ++ [_])[r]? = _
      rw [List.getElem?_append_left]
      · exact hr
      · exact (List.getElem?_eq_some_iff.1 hr).1
    · intro rc hrc
      rcases List.mem_append.1 hrc with hrc | hrc
      · exact h.meta4 rc hrc
      · rw [List.mem_singleton] at hrc; subst hrc; intro m hm; cases hm
  | member r n u t c =>
    rw [apply, recordMetricAdd] at ha
    split at ha
    · cases ha
    · rename_i rcd hrc
      split at ha
      · cases ha
      · rename_i sz hsz
        have hid := hc rcd hrc
        cases ha
        refine ⟨?_, ?_, ?_, h.dataSz⟩
        · intro m hm
          refine (h.ok m hm).mono ?_
          intro r' rc' hr' hid'
          have hne : r' ≠ r := by
            intro e; subst e; rw [hrc] at hr'; cases hr'; exact hid' hid
          exact ⟨rc', by show (w.recs.set r _)[r']? = _; rw [List.getElem?_set_ne (Ne.symm hne)]; exact hr', hid', rfl⟩
        · intro x hx m hm
          rcases List.mem_or_eq_of_mem_set hx with hx | hx
          · exact h.meta4 x hx m hm
          · subst hx
            rcases List.mem_append.1 hm with hm | hm
            · exact h.meta4 rcd (List.mem_of_getElem? hrc) m hm
            · rw [List.mem_singleton] at hm; subst hm; exact (metaSize_ok _ _).1
        · dsimp only
          rw [hid]
          exact h.metaSz
  | record r =>
    rw [apply, recordAdd] at ha
    split at ha
    · cases ha
    · rename_i rcd hrc
      split at ha
      · cases ha; exact h
      · split at ha
        · cases ha; exact h
        · rename_i hid
          have hidn : rcd.metricId = none := by
            cases hx : rcd.metricId with
            | none => rfl
            | some x => rw [hx] at hid; exact absurd rfl hid
          cases ha
          refine ⟨?_, ?_, ?_, ?_⟩
          · intro m hm
            rcases List.mem_append.1 hm with hm | hm
            · refine (h.ok m hm).mono ?_
              intro r' rc' hr' hid'
              have hne : r' ≠ r := by
                intro e; subst e; rw [hrc] at hr'; cases hr'; exact hid' hidn
              exact ⟨rc', by show (w.recs.set r _)[r']? = _; rw [List.getElem?_set_ne (Ne.symm hne)]; exact hr', hid',
                rfl⟩
            · rw [List.mem_singleton] at hm
              subst hm
              refine ⟨(metaSize_ok _ _).1, (metaSize_ok _ _).2, (fun e => by cases e), ?_, fun i t e => by cases e⟩
              intro r' e
              cases e
              refine ⟨rfl, rfl, { rcd with metricId := some w.metrics.length }, ?_, ?_, rfl⟩
              · show (w.recs.set r _)[r]? = _
                exact List.getElem?_set_self (List.getElem?_eq_some_iff.1 hrc).1
              · simp
          · intro x hx m hm
            rcases List.mem_or_eq_of_mem_set hx with hx | hx
            · exact h.meta4 x hx m hm
            · subst hx; exact h.meta4 rcd (List.mem_of_getElem? hrc) m hm
          · show w.metaSz + _ + _ + typeSz rcd.members = _
            rw [h.metaSz]
            simp only [mdefAdd, List.map_append, List.sum_append, List.map_cons, List.map_nil, List.sum_cons,
              List.sum_nil, metaPart, extra, recDataSz, Bool.false_eq_true, if_false]
            omega
          · show w.dataSz + 0 = _
            rw [h.dataSz]
            simp only [mdefAdd, List.map_append, List.sum_append, List.map_cons, List.map_nil, List.sum_cons,
              List.sum_nil, dataPart, Bool.false_eq_true, if_false]
            omega
  | recordArray n r l =>
    rw [apply, recordArrayAdd] at ha
    split at ha
    · cases ha
    · rename_i rcd hrc
      split at ha
      · cases ha; exact h
      · split at ha
        · cases ha; exact h
        · injection ha with ha
          have : w' = (mdefAdd w _).1 := (congrArg Prod.fst ha).symm
          rw [this]
          refine inv_mdefAdd h ⟨(metaSize_ok _ _).1, (metaSize_ok _ _).2, (fun e => by cases e), (fun r e => by cases e), ?_⟩ rfl
          intro i t e
          cases e
          exact ⟨rfl, rfl, rfl⟩
  | card n => cases ha; exact ⟨h.ok, h.meta4, h.metaSz, h.dataSz⟩

theorem reach_inv {w : W} (h : Reach Complete w) : Inv w := by
  induction h with
  | new => exact inv_new
  | step _ hc ha ih => exact inv_apply ih hc ha

/-! ## chains of regions -/

/-- what a region of a set holds: the header, an entry of the dictionary, the instance name, the schema
name with the digest, a descriptor, a value in the meta data, and in every data copy the data header, a
value and the heap -/
inductive Item where
  | hdr
  | dict (i : Nat)
  | inst
  | schema
  | desc (i : Nat)
  | metaVal (i : Nat)
  | dataHdr (k : Nat)
  | dataVal (k i : Nat)
  | heap (k : Nat)
  deriving DecidableEq, Repr

structure Reg where
  item : Item
  lo : Nat
  hi : Nat
  deriving DecidableEq, Repr

/-- the regions follow each other between `lo` and `hi` -/
def Chain (lo : Nat) : List Reg → Nat → Prop
  | [], hi => lo ≤ hi
  | r :: rs, hi => lo ≤ r.lo ∧ r.lo ≤ r.hi ∧ Chain r.hi rs hi

theorem Chain.le {lo hi : Nat} {l : List Reg} (h : Chain lo l hi) : lo ≤ hi := by
  induction l generalizing lo with
  | nil => exact h
  | cons r rs ih =>
    have := ih h.2.2
    have := h.1
    have := h.2.1
    omega

theorem Chain.append {a b c : Nat} {l l' : List Reg} (h : Chain a l b) (h' : Chain b l' c) : Chain a (l ++ l') c := by
  induction l generalizing a with
  | nil =>
    cases l' with
    | nil => exact Nat.le_trans h h'
    | cons r rs => exact ⟨Nat.le_trans h h'.1, h'.2.1, h'.2.2⟩
  | cons r rs ih => exact ⟨h.1, h.2.1, ih h.2.2⟩

theorem Chain.mono {a a' b b' : Nat} {l : List Reg} (h : Chain a l b) (ha : a' ≤ a) (hb : b ≤ b') :
    Chain a' l b' := by
  induction l generalizing a a' with
  | nil => exact Nat.le_trans ha (Nat.le_trans h hb)
  | cons r rs ih => exact ⟨Nat.le_trans ha h.1, h.2.1, ih h.2.2 (Nat.le_refl _)⟩

theorem Chain.bounds {a b : Nat} {l : List Reg} (h : Chain a l b) : ∀ r ∈ l, a ≤ r.lo ∧ r.lo ≤ r.hi ∧ r.hi ≤ b := by
  induction l generalizing a with
  | nil => intro r hr; cases hr
  | cons x xs ih =>
    intro r hr
    rcases List.mem_cons.1 hr with rfl | hr
    · exact ⟨h.1, h.2.1, h.2.2.le⟩
    · obtain ⟨p, q, s⟩ := ih h.2.2 r hr
      have := h.1
      have := h.2.1
      exact ⟨by omega, q, s⟩

theorem Chain.pairwise {a b : Nat} {l : List Reg} (h : Chain a l b) : l.Pairwise fun r s => r.hi ≤ s.lo := by
  induction l generalizing a with
  | nil => exact List.Pairwise.nil
  | cons x xs ih =>
    refine List.Pairwise.cons ?_ (ih h.2.2)
    intro r hr
    exact (h.2.2.bounds r hr).1

end Verif.Schema
