import Verif.Schema.Proofs

/-!
# C35: metric names are unique in a schema and map to their index
-/

namespace Verif.Schema

/-- the name that a call gives to a new metric of the schema, if it adds one -/
def Op.metricName (w : W) : Op → Option Str
  | .metric n _ _ => n
  | .metaMetric n _ _ => n
  | .metricArray n _ _ _ => n
  | .metaArray n _ _ _ => n
  | .list n _ _ => n
  | .record r => w.recs[r]?.map (·.name)
  | .recordArray n _ _ => some n
  | _ => none

def names (w : W) : List Str := w.metrics.map (·.name)

theorem hasName_iff (w : W) (n : Str) : hasName w n = true ↔ n ∈ names w := by
  unfold hasName names
  rw [List.any_eq_true, List.mem_map]
  constructor
  · rintro ⟨m, hm, e⟩; exact ⟨m, hm, by simpa using e⟩
  · rintro ⟨m, hm, e⟩; exact ⟨m, hm, by simpa using e⟩

/-- what a call can do to the names -/
theorem schemaMetricAdd_spec {w w' : W} {n u : Option Str} {d : Bool} {t c : Nat} {rc : Int}
    (h : schemaMetricAdd w n u d t c = some (w', rc)) :
    (rc < 0 ∧ w' = w ∧ (∀ x, n = some x → x ∈ names w → rc = -EEXIST) ∧ (rc = -EEXIST → ∃ x, n = some x ∧ x ∈ names w)) ∨
    (rc = w.metrics.length ∧ ∃ x, n = some x ∧ x ∉ names w ∧ names w' = names w ++ [x]) := by
  unfold schemaMetricAdd at h
  split at h
  · cases h
    exact Or.inl ⟨by decide, rfl, (fun x e => by cases e), fun e => by cases e⟩
  · rename_i x
    split at h
    · rename_i hn
      cases h
      exact Or.inl ⟨by decide, rfl, (fun _ _ _ => rfl), fun _ => ⟨x, rfl, (hasName_iff w x).1 hn⟩⟩
    · rename_i hn
      have hn' : x ∉ names w := fun hc => hn ((hasName_iff w x).2 hc)
      split at h
      · cases h
        refine Or.inl ⟨by decide, rfl, ?_, fun e => by cases e⟩
        intro y e hy; cases e; exact absurd hy hn'
      · split at h
        · cases h
        · split at h
          · cases h
          · cases h
            refine Or.inr ⟨rfl, x, rfl, hn', ?_⟩
            simp [names]

/-- *The outcome of adding a metric*, for every function that adds one: a negative result changes nothing,
and a name that is already used is never accepted; otherwise the result is the index of the new metric,
which comes after all others. -/
theorem metric_add {w w' : W} {op : Op} {rc : Int} (h : apply w op = some (w', rc)) :
    (∀ n, op.metricName w = some n →
      (rc < 0 ∧ w' = w) ∨ (rc = w.metrics.length ∧ n ∉ names w ∧ names w' = names w ++ [n])) ∧
    (op.metricName w = none → names w' = names w) := by
  have base : ∀ {n u : Option Str} {d : Bool} {t c : Nat}, schemaMetricAdd w n u d t c = some (w', rc) →
      (∀ x, n = some x → (rc < 0 ∧ w' = w) ∨ (rc = w.metrics.length ∧ x ∉ names w ∧ names w' = names w ++ [x])) ∧
      (n = none → names w' = names w) := by
    intro n u d t c h
    rcases schemaMetricAdd_spec h with ⟨a, b, _⟩ | ⟨a, x, hx, b, c⟩
    · exact ⟨fun _ _ => Or.inl ⟨a, b⟩, fun _ => by rw [b]⟩
    · refine ⟨fun y hy => ?_, fun e => by rw [e] at hx; cases hx⟩
      rw [hx] at hy; cases hy; exact Or.inr ⟨a, b, c⟩
  have refuse : ∀ {n : Option Str} {e : Int}, e < 0 → some (w, e) = some (w', rc) →
      (∀ x, n = some x → (rc < 0 ∧ w' = w) ∨ (rc = w.metrics.length ∧ x ∉ names w ∧ names w' = names w ++ [x])) ∧
      (n = none → names w' = names w) := by
    intro n e he h
    cases h
    exact ⟨fun _ _ => Or.inl ⟨he, rfl⟩, fun _ => rfl⟩
  cases op with
  | metric n u t =>
    simp only [apply, metricAdd] at h
    split at h
    · exact refuse (by decide) h
    · exact base h
  | metaMetric n u t =>
    simp only [apply, metaAdd] at h
    split at h
    · exact refuse (by decide) h
    · exact base h
  | metricArray n u t c =>
    simp only [apply, metricArrayAdd] at h
    split at h
    · exact refuse (by decide) h
    · exact base h
  | metaArray n u t c => exact base h
  | list n u c => exact base h
  | recordNew n => cases h; exact ⟨(fun _ e => by cases e), fun _ => rfl⟩
  | member r n u t c =>
    simp only [apply, recordMetricAdd] at h
    split at h
    · cases h
    · split at h
      · cases h
      · cases h; exact ⟨(fun _ e => by cases e), fun _ => rfl⟩
  | record r =>
    simp only [apply, recordAdd] at h
    split at h
    · cases h
    · rename_i rcd hr
      have hname : Op.metricName w (.record r) = some rcd.name := by simp [Op.metricName, hr]
      rw [hname]
      split at h
      · exact refuse (by decide) h
      · rename_i hn
        split at h
        · exact refuse (by decide) h
        · cases h
          refine ⟨?_, fun e => by cases e⟩
          intro x e
          cases e
          exact Or.inr ⟨rfl, fun hc => hn ((hasName_iff w _).2 hc), by simp [names, mdefAdd]⟩
  | recordArray n r l =>
    simp only [apply, recordArrayAdd] at h
    split at h
    · cases h
    · split at h
      · exact refuse (by decide) h
      · split at h
        · exact refuse (by decide) h
        · rename_i hn
          cases h
          refine ⟨?_, fun e => by cases e⟩
          intro x e
          cases e
          exact Or.inr ⟨rfl, fun hc => hn ((hasName_iff w _).2 hc), by simp [names, mdefAdd]⟩
  | card n => cases h; exact ⟨(fun _ e => by cases e), fun _ => rfl⟩

theorem isArray_iff (t : Nat) : isArray t = true ↔ 12 ≤ t ∧ t ≤ 22 := decide_eq_true_iff

/-- *Which function takes which type.*  Scalars are the types 1 to 11, arrays 12 to 22 and lists 23: a
scalar data metric is not an array or a list, an array data metric is an array, and metadata is never a
list. -/
theorem type_checks (w : W) (n u : Option Str) (t c : Nat) :
    (12 ≤ t ∧ t ≤ 23 → metricAdd w n u t = some (w, -EINVAL)) ∧
    (¬ (12 ≤ t ∧ t ≤ 22) → metricArrayAdd w n u t c = some (w, -EINVAL)) ∧
    (t = 23 ∨ 28 < t → metaAdd w n u t = some (w, -EINVAL)) ∧
    (n = none ∨ (t = 23 ∧ ∀ x, n = some x → x ∉ names w) → metaArrayAdd w n u t c = some (w, -EINVAL)) := by
  refine ⟨?_, ?_, ?_, ?_⟩
  · intro h
    rw [metricAdd, if_pos]
    rw [isArray_iff]; simp only [vList]; omega
  · intro h
    rw [metricArrayAdd, if_pos]
    rw [Bool.not_eq_true', ← Bool.not_eq_true, isArray_iff]; omega
  · intro h
    rw [metaAdd, if_pos]
    simp only [vList, vLast]; omega
  · rintro (rfl | ⟨rfl, h⟩)
    · rfl
    · cases n with
      | none => rfl
      | some x =>
        have hn : hasName w x = false := by
          rw [Bool.eq_false_iff]; exact fun hc => h x rfl ((hasName_iff w x).1 hc)
        simp [metaArrayAdd, schemaMetricAdd, hn, vList]

/-- *And every scalar and array is taken*, under a new name, by the functions for data and metadata. -/
theorem type_accepted (w : W) (n : Str) (u : Option Str) (t c : Nat) (hn : n ∉ names w) :
    (1 ≤ t ∧ t ≤ 11 → ∃ w1 w2, metricAdd w (some n) u t = some (w1, (w.metrics.length : Int)) ∧
      metaAdd w (some n) u t = some (w2, (w.metrics.length : Int))) ∧
    (12 ≤ t ∧ t ≤ 22 → ∃ w1 w2, metricArrayAdd w (some n) u t c = some (w1, (w.metrics.length : Int)) ∧
      metaArrayAdd w (some n) u t c = some (w2, (w.metrics.length : Int))) ∧
    ∃ w1, metricListAdd w (some n) u c = some (w1, (w.metrics.length : Int)) := by
  have hh : hasName w n = false := by
    rw [Bool.eq_false_iff]; exact fun hc => hn ((hasName_iff w n).1 hc)
  have base : ∀ d t c, (1 ≤ t ∧ t ≤ 22) →
      ∃ w1, schemaMetricAdd w (some n) u d t c = some (w1, (w.metrics.length : Int)) := by
    intro d t c h
    have hv : ∃ k, valueSize t c = some k := by
      have : t = 1 ∨ t = 2 ∨ t = 3 ∨ t = 4 ∨ t = 5 ∨ t = 6 ∨ t = 7 ∨ t = 8 ∨ t = 9 ∨ t = 10 ∨ t = 11 ∨ t = 12 ∨
        t = 13 ∨ t = 14 ∨ t = 15 ∨ t = 16 ∨ t = 17 ∨ t = 18 ∨ t = 19 ∨ t = 20 ∨ t = 21 ∨ t = 22 := by omega
      rcases this with rfl | rfl | rfl | rfl | rfl | rfl | rfl | rfl | rfl | rfl | rfl | rfl | rfl | rfl | rfl | rfl |
        rfl | rfl | rfl | rfl | rfl | rfl <;> exact ⟨_, rfl⟩
    obtain ⟨k, hk⟩ := hv
    have h1 : t ≠ vList := by simp only [vList]; omega
    have h2 : t ≠ vRecordType := by simp only [vRecordType]; omega
    simp [schemaMetricAdd, hh, h1, h2, hk, mdefAdd]
  refine ⟨?_, ?_, ?_⟩
  · intro h
    obtain ⟨w1, h1⟩ := base true t 1 (by omega)
    obtain ⟨w2, h2⟩ := base false t 1 (by omega)
    refine ⟨w1, w2, ?_, ?_⟩
    · rw [metricAdd, if_neg]
      · exact h1
      · rw [isArray_iff]; simp only [vList]; omega
    · rw [metaAdd, if_neg]
      · exact h2
      · simp only [vList, vLast]; omega
  · intro h
    obtain ⟨w1, h1⟩ := base true t c (by omega)
    obtain ⟨w2, h2⟩ := base false t c (by omega)
    refine ⟨w1, w2, ?_, h2⟩
    rw [metricArrayAdd, if_neg]
    · exact h1
    · rw [Bool.not_eq_true', ← Bool.not_eq_true, isArray_iff]; omega
  · simp [metricListAdd, schemaMetricAdd, hh, vList, valueSize, rawSize, vRecordType, mdefAdd]

example : metricAdd W.new (some [97]) none 12 = some (W.new, -EINVAL) ∧
    ((metricArrayAdd W.new (some [97]) none 12 5).map (·.2)) = some 0 := by decide

/-- *A used name is refused with `EEXIST`* by the functions that check nothing before the name; the
others may report `EINVAL` for the type or for a record that is not in the schema. -/
theorem duplicate_eexist (w : W) (n : Str) (hn : n ∈ names w) (u : Option Str) (t c r : Nat) :
    metaArrayAdd w (some n) u t c = some (w, -EEXIST) ∧
    metricListAdd w (some n) u c = some (w, -EEXIST) ∧
    (isArray t = false → t ≠ vList → metricAdd w (some n) u t = some (w, -EEXIST)) ∧
    (t ≠ vList → t ≤ vLast → metaAdd w (some n) u t = some (w, -EEXIST)) ∧
    (isArray t = true → metricArrayAdd w (some n) u t c = some (w, -EEXIST)) ∧
    (∀ rc, w.recs[r]? = some rc → rc.name = n → recordAdd w r = some (w, -EEXIST)) ∧
    (∀ rc, w.recs[r]? = some rc → rc.metricId ≠ none → recordArrayAdd w n r c = some (w, -EEXIST)) := by
  have hh := (hasName_iff w n).2 hn
  have base : ∀ d t c, schemaMetricAdd w (some n) u d t c = some (w, -EEXIST) := by
    intro d t c; simp [schemaMetricAdd, hh]
  refine ⟨base _ _ _, base _ _ _, ?_, ?_, ?_, ?_, ?_⟩
  · intro h1 h2; rw [metricAdd, if_neg (by simp [h1, h2])]; exact base _ _ _
  · intro h1 h2; rw [metaAdd, if_neg (by rintro (h | h) <;> omega)]; exact base _ _ _
  · intro h1; rw [metricArrayAdd, if_neg (by simp [h1])]; exact base _ _ _
  · intro rc hr he; subst he; simp [recordAdd, hr, hh]
  · intro rc hr he
    cases hid : rc.metricId with
    | none => exact absurd hid he
    | some id => simp [recordArrayAdd, hr, hid, hh]

/-- *Names are unique in every schema*, whatever the calls. -/
theorem names_unique {w : W} (h : Reach (fun _ _ => True) w) : (names w).Nodup := by
  induction h with
  | new => exact List.nodup_nil
  | @step w w' op rc _ _ ha ih =>
    obtain ⟨h1, h2⟩ := metric_add ha
    cases hn : op.metricName w with
    | none => rw [h2 hn]; exact ih
    | some n =>
      rcases h1 n hn with ⟨_, e⟩ | ⟨_, hx, e⟩
      · rw [e]; exact ih
      · rw [e, List.nodup_append]
        refine ⟨ih, by simp, ?_⟩
        intro a ha b hb hab
        rw [List.mem_singleton] at hb
        subst hb; subst hab
        exact hx ha

theorem findIdx_of_nodup {ms : List Met} (h : (ms.map (·.name)).Nodup) {i : Nat} {m : Met} (hi : ms[i]? = some m) :
    ms.findIdx? (fun x => x.name == m.name) = some i := by
  rw [List.findIdx?_eq_some_iff_getElem]
  obtain ⟨hlt, he⟩ := List.getElem?_eq_some_iff.1 hi
  refine ⟨hlt, by rw [he]; simp, ?_⟩
  intro j hj
  simp only [beq_iff_eq]
  intro e
  have hjl : j < ms.length := by omega
  have h1 : (ms.map (·.name))[i]? = (ms.map (·.name))[j]? := by
    rw [List.getElem?_map, List.getElem?_map, List.getElem?_eq_getElem hlt, List.getElem?_eq_getElem hjl]
    simp [e, he]
  have := (List.getElem?_inj (by simpa using hlt) h).1 h1
  omega

/-- *A metric is found under its name*: the lookup returns the index of the metric with that name, and
-1 exactly when there is none. -/
theorem metric_by_name {w : W} (h : Reach (fun _ _ => True) w) (n : Str) :
    (∀ i : Nat, metricByName w n = i ↔ (names w)[i]? = some n) ∧
    (metricByName w n = -1 ↔ n ∉ names w) := by
  have hnd := names_unique h
  by_cases hn : n ∈ names w
  · obtain ⟨m, hm, e⟩ := List.mem_map.1 hn
    obtain ⟨j, hj, he⟩ := List.getElem_of_mem hm
    have hj' : w.metrics[j]? = some m := by rw [List.getElem?_eq_getElem hj, he]
    have := findIdx_of_nodup hnd hj'
    rw [e] at this
    have hv : metricByName w n = (j : Int) := by rw [metricByName, this]
    have hnj : (names w)[j]? = some n := by rw [names, List.getElem?_map, hj', Option.map_some, e]
    refine ⟨fun i => ?_, ?_⟩
    · rw [hv]
      constructor
      · intro h; have : j = i := by omega
        rw [← this]; exact hnj
      · intro h
        have h2 := (List.getElem?_inj (i := i) (j := j) (List.getElem?_eq_some_iff.1 h).1 hnd).1 (by rw [h, hnj])
        omega
    · rw [hv]
      constructor
      · intro h; omega
      · intro h; exact absurd hn h
  · have hnone : w.metrics.findIdx? (fun x => x.name == n) = none := by
      rw [List.findIdx?_eq_none_iff]
      intro m hm
      simp only [beq_eq_false_iff_ne]
      intro e
      exact hn (List.mem_map.2 ⟨m, hm, e⟩)
    have hv : metricByName w n = -1 := by rw [metricByName, hnone]
    refine ⟨fun i => ?_, ?_⟩
    · rw [hv]
      constructor
      · intro h; omega
      · intro h; exact absurd (List.mem_of_getElem? h) hn
    · exact ⟨fun _ => hn, fun _ => hv⟩

/-- *An index stays valid*: later calls do not change the metric at an index. -/
theorem index_stable {w w' : W} {op : Op} {rc : Int} (h : apply w op = some (w', rc)) {i : Nat} {n : Str}
    (hi : (names w)[i]? = some n) : (names w')[i]? = some n := by
  obtain ⟨h1, h2⟩ := metric_add h
  cases hn : op.metricName w with
  | none => rw [h2 hn]; exact hi
  | some x =>
    rcases h1 x hn with ⟨_, e⟩ | ⟨_, _, e⟩
    · rw [e]; exact hi
    · rw [e, List.getElem?_append_left (List.getElem?_eq_some_iff.1 hi).1]; exact hi

/-- **Defect**: members of a record are not checked.  A second member with the same name is accepted, and
cannot be found by its name. -/
theorem duplicate_member_defect :
    ∃ w w' rc, Reach (fun _ _ => True) w ∧ apply w (.member 0 [120] none 8 1) = some (w', 1) ∧
      w'.recs[0]? = some rc ∧ rc.members.map (·.name) = [[120], [120]] ∧ recordMetricFind rc.members [120] = 0 :=
  ⟨_, _, _, .step (.step .new trivial (op := .recordNew [114]) rfl) trivial (op := .member 0 [120] none 8 1) rfl,
    rfl, rfl, rfl, rfl⟩

/-- three metrics, the second is refused -/
example : ∃ w, Reach (fun _ _ => True) w ∧ names w = [[97], [98]] ∧ metricByName w [98] = 1 ∧
    metricByName w [99] = -1 :=
  ⟨_, .step (.step (.step .new trivial (op := .metric (some [97]) none 8) rfl) trivial
    (op := .metricArray (some [97]) none 12 5) rfl) trivial (op := .metaMetric (some [98]) none 8) rfl, rfl, rfl, rfl⟩

end Verif.Schema
