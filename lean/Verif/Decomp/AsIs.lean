import Verif.Decomp.Static

/-!
# Proofs: the as_is decomposition
-/

namespace Verif.Decomp

/-- A column of the configuration shows what the column of the specification shows. -/
def Rel (s : MSet) (c : ACol) (a : AColumn) : Prop :=
  c.name = a.name ∧ c.ty = a.ty ∧
  ∃ y, aInit s c = .ok y ∧
    Walk aAdvance c y ((aColumnOf s a).at ⟨a.ty, 1, [0]⟩) ((aColumnOf s a).rows - 1) ∧
    (aColumnOf s a).rows ≤ restLen y.rest + 1 ∧
    ∀ r, ((aColumnOf s a).at ⟨a.ty, 1, [0]⟩ r).ty = a.ty

/-- The same for lists of columns. -/
def Rels (s : MSet) (cs : List ACol) (as : List AColumn) : Prop :=
  cs.length = as.length ∧
  ∀ (j : Nat) c a, cs[j]? = some c → as[j]? = some a → Rel s c a

theorem rels_nil (s : MSet) : Rels s [] [] := ⟨rfl, by simp⟩

theorem rels_cons {s : MSet} {c : ACol} {a : AColumn} {cs : List ACol} {as : List AColumn}
    (h : Rel s c a) (h' : Rels s cs as) : Rels s (c :: cs) (a :: as) := by
  refine ⟨by simp [h'.1], fun j c' a' h1 h2 => ?_⟩
  cases j with
  | zero => simp only [List.getElem?_cons_zero, Option.some.injEq] at h1 h2; subst h1 h2; exact h
  | succ j => exact h'.2 j c' a' (by simpa using h1) (by simpa using h2)

theorem rels_head {s : MSet} {c : ACol} {a : AColumn} {cs : List ACol} {as : List AColumn}
    (h : Rels s (c :: cs) (a :: as)) : Rel s c a ∧ Rels s cs as :=
  ⟨h.2 0 c a rfl rfl, by simpa using h.1, fun j c' a' h1 h2 =>
    h.2 (j + 1) c' a' (by simpa using h1) (by simpa using h2)⟩

theorem rels_append {s : MSet} : ∀ {cs : List ACol} {as : List AColumn} {cs' : List ACol}
    {as' : List AColumn}, Rels s cs as → Rels s cs' as' → Rels s (cs ++ cs') (as ++ as')
  | [], [], _, _, _, h' => h'
  | [], _ :: _, _, _, h, _ => by simp [Rels] at h
  | _ :: _, [], _, _, h, _ => by simp [Rels] at h
  | _ :: _, _ :: _, _, _, h, h' => rels_cons (rels_head h).1 (rels_append (rels_head h).2 h')

/-! ## Members -/

theorem find_nodup {r : Rec} {k : Nat} {m : Name × Val} (hk : r[k]? = some m)
    (hn : (r.map (·.1)).Nodup) : memberOf m.1 r = some m.2 := by
  induction r generalizing k with
  | nil => simp at hk
  | cons x r ih =>
    simp only [List.map_cons, List.nodup_cons] at hn
    cases k with
    | zero => simp only [List.getElem?_cons_zero, Option.some.injEq] at hk; subst hk; simp [memberOf]
    | succ k =>
      have hk' : r[k]? = some m := by simpa using hk
      have hmem : m.1 ∈ r.map (·.1) := List.mem_map.mpr ⟨m, List.mem_of_getElem? hk', rfl⟩
      have hne : ¬ x.1 = m.1 := fun e => hn.1 (e ▸ hmem)
      have := ih hk' hn.2
      simp only [memberOf, List.find?_cons, hne, decide_false] at this ⊢
      exact this

theorem metricOf_nodup {s : MSet} {i : Nat} {m : Name × Metric} (hk : s.metrics[i]? = some m)
    (hn : (s.metrics.map (·.1)).Nodup) : metricOf s m.1 = some m.2 := by
  unfold metricOf
  generalize s.metrics = l at hk hn
  induction l generalizing i with
  | nil => simp at hk
  | cons x r ih =>
    simp only [List.map_cons, List.nodup_cons] at hn
    cases i with
    | zero => simp only [List.getElem?_cons_zero, Option.some.injEq] at hk; subst hk; simp
    | succ k =>
      have hk' : r[k]? = some m := by simpa using hk
      have hmem : m.1 ∈ r.map (·.1) := List.mem_map.mpr ⟨m, List.mem_of_getElem? hk', rfl⟩
      have hne : ¬ x.1 = m.1 := fun e => hn.1 (e ▸ hmem)
      have := ih hk' hn.2
      simp only [List.find?_cons, hne, decide_false]
      exact this

/-- The member at a position, for records of one kind. -/
theorem get_like {r r0 : Rec} {k : Nat} {m0 : Name × Val} (h0 : r0[k]? = some m0)
    (hl : (r.map fun m => (m.1, m.2.ty)) = r0.map fun m => (m.1, m.2.ty))
    (hn : (r.map (·.1)).Nodup) :
    ∃ v, get r k = .ok v ∧ memberOf m0.1 r = some v ∧ v.ty = m0.2.ty := by
  have h := congrArg (fun l : List (Name × Nat) => l[k]?) hl
  simp only [List.getElem?_map, h0, Option.map_some] at h
  cases hk : r[k]? with
  | none => rw [hk] at h; simp at h
  | some m =>
    rw [hk] at h
    simp only [Option.map_some, Option.some.injEq, Prod.mk.injEq] at h
    exact ⟨m.2, by simp [get, hk], h.1 ▸ find_nodup hk hn, h.2⟩

theorem at_ty {mk : List Val → Column} (hmk : mk = .each ∨ mk = .array) {vs : List Val}
    {ty : Nat} {d : Val} (hd : d.ty = ty) (hv : ∀ v ∈ vs, v.ty = ty) (r : Nat) :
    ((Column.ofVals mk d vs).at d r).ty = ty := by
  cases vs with
  | nil => exact hd
  | cons v vs =>
    have : ((v :: vs).getD r d).ty = ty := by
      rw [List.getD_eq_getElem?_getD]
      cases h : (v :: vs)[r]? with
      | none => exact hd
      | some w => exact hv w (List.mem_of_getElem? h)
    rcases hmk with rfl | rfl <;> exact this

/-! ## The columns of a metric -/

theorem rel_val {s : MSet} {i : Nat} {n : Name} {v : Val} {ty : Nat}
    (hi : s.metrics[i]? = some (n, .val v)) (hm : metricOf s n = some (.val v))
    (hp : v.ty ≤ tLastPrim) (ht : v.ty = ty) :
    Rel s ⟨n, some i, ty, none, ty⟩ ⟨n, ty, some n, none⟩ := by
  refine ⟨rfl, rfl, ⟨v, .none⟩, ?_, ?_, ?_, ?_⟩
  · simp [aInit, hi, Metric.ty, ht.symm, aInitMetric, Nat.not_lt.mpr hp]
  · simp only [aColumnOf, hm, metricCol, Column.rows]
    exact walk_same rfl fun _ => rfl
  · simp [aColumnOf, hm, metricCol, Column.rows, restLen]
  · intro r; simp [aColumnOf, hm, metricCol, Column.at, ht]

theorem rel_values {s : MSet} {i : Nat} {n : Name} {es : List Elem} {ty : Nat}
    (hi : s.metrics[i]? = some (n, .list es)) (hm : metricOf s n = some (.list es))
    (hp : ty ≤ tLastPrim) (hv : ∀ e ∈ es, ∃ v, e = .val v ∧ v.ty = ty) :
    Rel s ⟨n, some i, tList, none, ty⟩ ⟨n, ty, some n, none⟩ := by
  have hf : es.filterMap (elemVal none) = es.map Elem.asVal :=
    filterMap_all fun e he => by
      obtain ⟨v, rfl, _⟩ := hv e he
      simp [elemVal, Elem.asVal]
  have hc : aColumnOf s ⟨n, ty, some n, none⟩ =
      Column.ofVals .each ⟨ty, 1, [0]⟩ (es.map Elem.asVal) := by
    simp [aColumnOf, hm, metricCol, hf]
  have hty : ∀ v ∈ es.map Elem.asVal, v.ty = ty := by
    intro v hv'
    obtain ⟨e, he, rfl⟩ := List.mem_map.mp hv'
    obtain ⟨v, rfl, h⟩ := hv e he
    exact h
  refine ⟨rfl, rfl, ?_⟩
  rw [hc]
  cases es with
  | nil =>
    refine ⟨⟨⟨ty, 1, [0]⟩, .none⟩, by simp [aInit, hi, Metric.ty, aInitMetric, aFill], ?_, ?_, ?_⟩
    · exact walk_same rfl fun _ => rfl
    · simp [Column.ofVals, Column.rows]
    · exact at_ty (.inl rfl) rfl hty
  | cons e es =>
    obtain ⟨v, rfl, hvt⟩ := hv e (List.mem_cons_self ..)
    refine ⟨⟨v, .list es⟩, by simp [aInit, hi, Metric.ty, aInitMetric, Elem.asVal, hvt], ?_, ?_, ?_⟩
    · have := walk_list (adv := aAdvance) (k := ⟨n, some i, tList, none, ty⟩)
        (d := ⟨ty, 1, [0]⟩) Elem.asVal (fun _ => rfl) rfl es v fun e _ v' es' => by
          simp [aAdvance, Nat.not_lt.mpr hp]
      have e1 : (Column.ofVals .each ⟨ty, 1, [0]⟩ ((Elem.val v :: es).map Elem.asVal)).rows - 1 =
          es.length := by simp [Column.ofVals, Column.rows]
      rw [e1]
      exact this
    · simp [Column.ofVals, Column.rows, restLen]
    · exact at_ty (.inl rfl) rfl hty

theorem rel_member {s : MSet} {i k : Nat} {n : Name} {es : List Elem} {r0 : Rec}
    {m0 : Name × Val} (h0 : r0[k]? = some m0)
    (hi : s.metrics[i]? = some (n, .list es)) (hm : metricOf s n = some (.list es))
    (hv : ∀ e ∈ es, ∃ r, e = .record r ∧ (r.map (·.1)).Nodup ∧
      (r.map fun m => (m.1, m.2.ty)) = r0.map fun m => (m.1, m.2.ty)) :
    Rel s ⟨n ++ '.' :: m0.1, some i, tList, some k, m0.2.ty⟩
      ⟨n ++ '.' :: m0.1, m0.2.ty, some n, some m0.1⟩ := by
  let c : ACol := ⟨n ++ '.' :: m0.1, some i, tList, some k, m0.2.ty⟩
  let g : Elem → Val := fun e => (elemVal (some m0.1) e).getD (aFill c)
  have hg : ∀ e ∈ es, elemVal (some m0.1) e = some (g e) ∧ (g e).ty = m0.2.ty ∧
      (∃ r, e = .record r ∧ get r k = .ok (g e)) ∧
      ∀ v' es', aAdvance c ⟨v', .list (e :: es')⟩ = .ok (⟨g e, .list es'⟩, true) := by
    intro e he
    obtain ⟨r, rfl, hn, hl⟩ := hv e he
    obtain ⟨v, h1, h2, h3⟩ := get_like h0 hl hn
    have h4 : elemVal (some m0.1) (.record r) = some v := by simp [elemVal, h2]
    have h5 : g (.record r) = v := by simp [g, h4]
    rw [h5]
    exact ⟨h4, h3, ⟨r, rfl, h1⟩, fun v' es' => by simp [aAdvance, c, h1, Res.map]⟩
  have hc : aColumnOf s ⟨n ++ '.' :: m0.1, m0.2.ty, some n, some m0.1⟩ =
      Column.ofVals .each ⟨m0.2.ty, 1, [0]⟩ (es.map g) := by
    simp only [aColumnOf, hm, metricCol]
    rw [filterMap_all fun e he => (hg e he).1]
  have hty : ∀ v ∈ es.map g, v.ty = m0.2.ty := by
    intro v hv'
    obtain ⟨e, he, rfl⟩ := List.mem_map.mp hv'
    exact (hg e he).2.1
  refine ⟨rfl, rfl, ?_⟩
  rw [hc]
  cases es with
  | nil =>
    refine ⟨⟨aFill c, .none⟩, by simp [aInit, hi, Metric.ty, aInitMetric, c, aFill], ?_, ?_, ?_⟩
    · exact walk_same rfl fun _ => rfl
    · simp [Column.ofVals, Column.rows]
    · exact at_ty (.inl rfl) rfl hty
  | cons e es =>
    obtain ⟨_, h2, ⟨r, hr, h3⟩, _⟩ := hg e (List.mem_cons_self ..)
    refine ⟨⟨g e, .list es⟩, ?_, ?_, ?_, ?_⟩
    · subst hr
      simp [aInit, hi, Metric.ty, aInitMetric, aInitRec, h3, Res.map, h2]
    · have := walk_list (adv := aAdvance) (k := c) (d := aFill c) g (fun _ => rfl) rfl es (g e)
        fun e' he' => (hg e' (List.mem_cons_of_mem _ he')).2.2.2
      have e1 : (Column.ofVals .each ⟨m0.2.ty, 1, [0]⟩ ((e :: es).map g)).rows - 1 =
          es.length := by simp [Column.ofVals, Column.rows]
      rw [e1]
      exact this
    · simp [Column.ofVals, Column.rows, restLen]
    · exact at_ty (.inl rfl) rfl hty

theorem rel_array {s : MSet} {i k : Nat} {n : Name} {rs : List Rec} {r0 : Rec}
    {m0 : Name × Val} (h0 : r0[k]? = some m0)
    (hi : s.metrics[i]? = some (n, .arr rs)) (hm : metricOf s n = some (.arr rs))
    (hne : rs ≠ [])
    (hv : ∀ r ∈ rs, (r.map (·.1)).Nodup ∧
      (r.map fun m => (m.1, m.2.ty)) = r0.map fun m => (m.1, m.2.ty)) :
    Rel s ⟨n ++ '.' :: m0.1, some i, tRecArray, some k, m0.2.ty⟩
      ⟨n ++ '.' :: m0.1, m0.2.ty, some n, some m0.1⟩ := by
  let c : ACol := ⟨n ++ '.' :: m0.1, some i, tRecArray, some k, m0.2.ty⟩
  let g : Rec → Val := fun r => (memberOf m0.1 r).getD (aFill c)
  have hg : ∀ r ∈ rs, memberOf m0.1 r = some (g r) ∧ (g r).ty = m0.2.ty ∧
      get r k = .ok (g r) ∧
      ∀ v' rs', aAdvance c ⟨v', .arr (r :: rs')⟩ = .ok (⟨g r, .arr rs'⟩, false) := by
    intro r hr
    obtain ⟨hn, hl⟩ := hv r hr
    obtain ⟨v, h1, h2, h3⟩ := get_like h0 hl hn
    have h5 : g r = v := by simp [g, h2]
    rw [h5]
    exact ⟨h2, h3, h1, fun v' es' => by simp [aAdvance, c, h1, Res.map]⟩
  have hc : aColumnOf s ⟨n ++ '.' :: m0.1, m0.2.ty, some n, some m0.1⟩ =
      Column.ofVals .array ⟨m0.2.ty, 1, [0]⟩ (rs.map g) := by
    simp only [aColumnOf, hm, metricCol, Option.bind_some]
    rw [filterMap_all fun e he => (hg e he).1]
  have hty : ∀ v ∈ rs.map g, v.ty = m0.2.ty := by
    intro v hv'
    obtain ⟨e, he, rfl⟩ := List.mem_map.mp hv'
    exact (hg e he).2.1
  refine ⟨rfl, rfl, ?_⟩
  rw [hc]
  cases rs with
  | nil => exact absurd rfl hne
  | cons e es =>
    obtain ⟨_, h2, h3, _⟩ := hg e (List.mem_cons_self ..)
    refine ⟨⟨g e, .arr es⟩, ?_, ?_, ?_, ?_⟩
    · simp [aInit, hi, Metric.ty, aInitMetric, aInitRec, h3, Res.map, h2]
    · exact walk_arr (adv := aAdvance) (k := c) (d := aFill c) g (fun _ => rfl) rfl es (g e)
        fun e' he' => (hg e' (List.mem_cons_of_mem _ he')).2.2.2
    · simp [Column.ofVals, Column.rows, restLen]
    · exact at_ty (.inr rfl) rfl hty

/-- The columns found in a metric show the metrics of its kind. -/
theorem metricCols_rels {s : MSet} {i : Nat} {n : Name} {m0 m : Metric}
    (hi : s.metrics[i]? = some (n, m)) (hm : metricOf s n = some m) (hp : ProperMetric m)
    (ha : m0.alikeT m) (hk : knownCols m0 = true) (hl : ∀ es, m0 = .list es → .lst ∉ es)
    (hpr : ∀ v es, m0 = .list es → .val v ∈ es → v.ty ≤ tLastPrim) :
    ∃ cs, metricCols i n m0 = .ok cs ∧ Rels s cs (metricColumns n m0) := by
  cases m0 with
  | val v0 =>
    cases m with
    | val v =>
      simp only [Metric.alikeT] at ha
      have h1 : v0.ty ≤ tLastPrim := by simpa [knownCols] using hk
      exact ⟨_, by simp [metricCols, Nat.not_lt.mpr h1],
        rels_cons (rel_val hi hm hp ha.symm) (rels_nil s)⟩
    | _ => exact ha.elim
  | recType =>
    cases m with
    | recType => exact ⟨[], rfl, rels_nil s⟩
    | _ => exact ha.elim
  | list es0 =>
    cases m with
    | list es =>
      obtain ⟨hp1, hp2, hp3, hp4⟩ := hp
      simp only [Metric.alikeT] at ha
      cases es0 with
      | nil => simp [knownCols] at hk
      | cons e0 es0 =>
        have ha0 : ∀ e ∈ es, shapeT e0 = shapeT e := ha e0 (List.mem_cons_self ..)
        cases e0 with
        | lst => exact absurd (List.mem_cons_self ..) (hl _ rfl)
        | val v0 =>
          have hv0 := hpr v0 _ rfl (List.mem_cons_self ..)
          refine ⟨_, rfl, rels_cons (rel_values hi hm hv0 ?_) (rels_nil s)⟩
          intro e he
          have hs := ha0 e he
          cases e with
          | val v => exact ⟨v, rfl, by simpa [shapeT, Elem.asVal] using hs.symm⟩
          | record r =>
            simp only [shapeT, Prod.mk.injEq] at hs
            exact absurd (hs.1 ▸ hv0 : 26 ≤ tLastPrim) (by decide)
          | lst => exact absurd he hp4
        | record r0 =>
          refine ⟨_, rfl, ?_⟩
          refine ⟨by simp [recCols, metricColumns, List.length_mapIdx], ?_⟩
          intro j c a h1 h2
          simp only [recCols, List.getElem?_mapIdx, metricColumns, List.getElem?_map] at h1 h2
          cases hj : r0[j]? with
          | none => rw [hj] at h1; simp at h1
          | some m0 =>
            rw [hj] at h1 h2
            simp only [Option.map_some, Option.some.injEq] at h1 h2
            subst h1 h2
            refine rel_member hj hi hm fun e he => ?_
            have hs := ha0 e he
            cases e with
            | val v =>
              simp only [shapeT, Prod.mk.injEq] at hs
              exact absurd (hs.1 ▸ hp2 v he : 26 ≤ tLastPrim) (by decide)
            | lst => exact absurd he hp4
            | record r =>
              simp only [shapeT, Prod.mk.injEq, true_and] at hs
              exact ⟨r, rfl, hp3 r he, hs.symm⟩
    | _ => exact ha.elim
  | arr rs0 =>
    cases m with
    | arr rs =>
      obtain ⟨hp1, hp2, hp3⟩ := hp
      simp only [Metric.alikeT] at ha
      cases rs0 with
      | nil => simp [knownCols] at hk
      | cons r0 rs0 =>
        refine ⟨_, rfl, ?_⟩
        refine ⟨by simp [recCols, metricColumns, List.length_mapIdx], ?_⟩
        intro j c a h1 h2
        simp only [recCols, List.getElem?_mapIdx, metricColumns, List.getElem?_map] at h1 h2
        cases hj : r0[j]? with
        | none => rw [hj] at h1; simp at h1
        | some m0 =>
          rw [hj] at h1 h2
          simp only [Option.map_some, Option.some.injEq] at h1 h2
          subst h1 h2
          exact rel_array hj hi hm hp1 fun r hr =>
            ⟨hp2 r hr, (ha r0 (List.mem_cons_self ..) r hr).symm⟩
    | _ => exact ha.elim

/-! ## The columns of a set -/

theorem colsFrom_rels {s : MSet} : ∀ (l : List (Name × Metric)) (i : Nat),
    (∀ (j : Nat) m0, l[j]? = some m0 → ∃ m, s.metrics[i + j]? = some (m0.1, m) ∧
      metricOf s m0.1 = some m ∧ ProperMetric m ∧ m0.2.alikeT m ∧ knownCols m0.2 = true ∧
      (∀ es, m0.2 = .list es → .lst ∉ es) ∧
      ∀ v es, m0.2 = .list es → .val v ∈ es → v.ty ≤ tLastPrim) →
    ∃ cs, colsFrom i l = .ok cs ∧ Rels s cs (l.flatMap fun m => metricColumns m.1 m.2)
  | [], _, _ => ⟨[], rfl, rels_nil s⟩
  | m0 :: l, i, h => by
    obtain ⟨m, h1, h2, h3, h4, h5, h6, h7⟩ := h 0 m0 rfl
    obtain ⟨cs, hc, hr⟩ := metricCols_rels (n := m0.1) h1 h2 h3 h4 h5 h6 h7
    obtain ⟨cs', hc', hr'⟩ := colsFrom_rels l (i + 1) fun j m1 hj => by
      have := h (j + 1) m1 (by simpa using hj)
      rwa [show i + (j + 1) = i + 1 + j by omega] at this
    simp only [Nat.add_zero] at hc
    refine ⟨cs ++ cs', by simp [colsFrom, hc, hc', Res.map], ?_⟩
    rw [List.flatMap_cons]
    exact rels_append hr hr'

theorem colsFrom_fail : ∀ (l : List (Name × Metric)) (i : Nat),
    (∀ m ∈ l, ProperMetric m.2) → l.all (fun m => knownCols m.2) = false →
    colsFrom i l = .fail
  | [], _, _, h => by simp at h
  | m :: l, i, hp, h => by
    have hm := hp m (List.mem_cons_self ..)
    have ih := colsFrom_fail l (i + 1) fun x hx => hp x (List.mem_cons_of_mem _ hx)
    rw [List.all_cons] at h
    rw [colsFrom]
    obtain ⟨n, x⟩ := m
    cases x with
    | val v =>
      have hv : v.ty ≤ tLastPrim := hm
      simp only [knownCols, hv, decide_true, Bool.true_and] at h
      simp [metricCols, Nat.not_lt.mpr hv, ih h, Res.map]
    | recType =>
      simp only [knownCols, Bool.true_and] at h
      simp [metricCols, ih h, Res.map]
    | list es =>
      cases es with
      | nil => simp [metricCols]
      | cons e es =>
        simp only [knownCols, List.isEmpty_cons, Bool.not_false, Bool.true_and] at h
        cases e <;> simp [metricCols, ih h, Res.map]
    | arr rs =>
      cases rs with
      | nil => exact absurd rfl hm.1
      | cons r rs =>
        simp only [knownCols, List.isEmpty_cons, Bool.not_false, Bool.true_and] at h
        simp [metricCols, ih h, Res.map]

theorem rels_names {s : MSet} : ∀ {cs : List ACol} {as : List AColumn}, Rels s cs as →
    cs.map (·.name) = as.map (·.name)
  | [], [], _ => rfl
  | [], _ :: _, h => by simp [Rels] at h
  | _ :: _, [], h => by simp [Rels] at h
  | _ :: _, _ :: _, h => by
    simp only [List.map_cons, (rels_head h).1.1, rels_names (rels_head h).2]

/-! ## Indices -/

theorem findIdx_name {α : Type} (f : α → Name) (n : Name) : ∀ (l : List α),
    l.findIdx? (fun x => f x == n) = (l.map f).findIdx? (· == n)
  | [] => rfl
  | a :: l => by rw [List.findIdx?_cons, List.map_cons, List.findIdx?_cons, findIdx_name f n l]

theorem find_cells (cells : List Cell) (n : Name) :
    ((cells.map (·.name)).findIdx? (· == n)).bind (cells[·]?) =
      cells.find? fun c => decide (c.name = n) := by
  rw [← findIdx_name, findIdx_find]
  congr 1
  funext x
  rw [Bool.eq_iff_iff]; simp

theorem idxPos_cells {cols : List ACol} {cells : List Cell}
    (hn : cells.map (·.name) = cols.map (·.name)) : ∀ (names : List Name) (ks : List Nat),
    idxPos cols names = some ks →
    ks.filterMap (cells[·]?) = names.filterMap fun n => cells.find? fun c => decide (c.name = n)
  | [], ks, h => by cases h; rfl
  | n :: names, ks, h => by
    rw [idxPos] at h
    split at h
    · rename_i k ks' h1 h2
      cases h
      have ih := idxPos_cells hn names ks' h2
      rw [findIdx_name, ← hn] at h1
      have := find_cells cells n
      rw [h1, Option.bind_some] at this
      rw [List.filterMap_cons, List.filterMap_cons, this, ih]
    · cases h

theorem idxAll_cells {cols : List ACol} {cells : List Cell}
    (hn : cells.map (·.name) = cols.map (·.name)) :
    ∀ (idxs : List (Name × List Name)) (ix : List (Name × List Nat)),
    idxAll cols idxs = some ix →
    (ix.map fun i => (i.1, i.2.filterMap (cells[·]?))) =
      idxs.map fun i => (i.1, i.2.filterMap fun n => cells.find? fun c => decide (c.name = n))
  | [], ix, h => by cases h; rfl
  | i :: idxs, ix, h => by
    rw [idxAll] at h
    split at h
    · rename_i ks t h1 h2
      cases h
      simp only [List.map_cons]
      rw [idxPos_cells hn _ _ h1, idxAll_cells hn idxs t h2]
    · cases h

theorem idxPos_iff {cols : List ACol} {as : List AColumn}
    (hn : cols.map (·.name) = as.map (·.name)) : ∀ (names : List Name),
    (idxPos cols names).isSome = names.all fun n => as.any fun c => decide (c.name = n)
  | [] => rfl
  | n :: names => by
    have ih := idxPos_iff hn names
    have h1 : (cols.findIdx? (fun x => x.name == n)).isSome =
        as.any fun c => decide (c.name = n) := by
      rw [findIdx_name, hn, ← findIdx_name, List.findIdx?_isSome]
      congr 1
      funext x
      rw [Bool.eq_iff_iff]; simp
    rw [idxPos, List.all_cons, ← ih, ← h1]
    cases cols.findIdx? (fun x => x.name == n) <;> cases idxPos cols names <;> rfl

theorem idxAll_iff {cols : List ACol} {as : List AColumn}
    (hn : cols.map (·.name) = as.map (·.name)) : ∀ (idxs : List (Name × List Name)),
    (idxAll cols idxs).isSome =
      idxs.all fun i => i.2.all fun n => as.any fun c => decide (c.name = n)
  | [] => rfl
  | i :: idxs => by
    rw [idxAll, List.all_cons, ← idxPos_iff hn, ← idxAll_iff hn idxs]
    cases idxPos cols i.2 <;> cases idxAll cols idxs <;> rfl

/-! ## The configuration of a set -/

theorem proper_alikeT {m : Metric} (h : ProperMetric m) : m.alikeT m := by
  cases m with
  | val v => rfl
  | recType => trivial
  | list es => exact h.1
  | arr rs => exact h.2.2

theorem rel_ts (s : MSet) :
    Rel s ⟨nTimestamp, none, 0, none, tTimestamp⟩
      ⟨"timestamp".toList, tTimestamp, none, none⟩ :=
  ⟨rfl, rfl, ⟨⟨tTimestamp, 0, s.ts⟩, .none⟩, rfl, walk_same rfl fun _ => rfl, Nat.le_refl _,
    fun _ => rfl⟩

theorem cols_of_ready {s0 s : MSet} (h0 : Proper s0) (hs : Proper s) (ha : AlikeT s0 s)
    (hr : s0.metrics.all (fun m => knownCols m.2) = true) :
    ∃ cs, colsFrom 0 s0.metrics = .ok cs ∧
      Rels s (⟨nTimestamp, none, 0, none, tTimestamp⟩ :: cs) (asIsColumns s0) := by
  obtain ⟨cs, h1, h2⟩ := colsFrom_rels (s := s) s0.metrics 0 (by
    intro j m0 hj
    rw [Nat.zero_add]
    have hmem := List.mem_of_getElem? hj
    have hn := congrArg (fun l : List Name => l[j]?) ha.1
    simp only [List.getElem?_map, hj, Option.map_some] at hn
    cases hm : s.metrics[j]? with
    | none => rw [hm] at hn; simp at hn
    | some m =>
      rw [hm] at hn
      simp only [Option.map_some, Option.some.injEq] at hn
      have hp0 := h0.2 m0 hmem
      refine ⟨m.2, by rw [hn], hn ▸ metricOf_nodup hm hs.1, hs.2 m (List.mem_of_getElem? hm),
        ha.2 j m0 m hj hm, (List.all_eq_true.mp hr) m0 hmem, ?_, ?_⟩
      · intro es he
        rw [he] at hp0
        exact hp0.2.2.2
      · intro v es he
        rw [he] at hp0
        exact hp0.2.1 v)
  exact ⟨cs, h1, rels_cons (rel_ts s) h2⟩

theorem newCfg_ready {idxs : List (Name × List Name)} {s0 s : MSet} (h0 : Proper s0)
    (hs : Proper s) (ha : AlikeT s0 s) (hr : Ready idxs s0 = true) :
    ∃ rc, newCfg idxs s0 = .ok rc ∧ rc.schema = shortName s0 ∧
      Rels s rc.cols (asIsColumns s0) ∧ idxAll rc.cols idxs = some rc.idxs := by
  rw [Ready, Bool.and_eq_true] at hr
  obtain ⟨cs, h1, h2⟩ := cols_of_ready h0 hs ha hr.1
  have h3 := idxAll_iff (rels_names h2) idxs
  rw [hr.2] at h3
  obtain ⟨ix, hix⟩ := Option.isSome_iff_exists.mp h3
  exact ⟨⟨shortName s0, _, ix⟩, by simp only [newCfg, h1, hix], rfl, h2, hix⟩

theorem newCfg_not {idxs : List (Name × List Name)} {s : MSet} (hs : Proper s)
    (hr : Ready idxs s = false) : newCfg idxs s = .fail := by
  cases hk : s.metrics.all fun m => knownCols m.2 with
  | false => rw [newCfg, colsFrom_fail _ _ hs.2 hk]
  | true =>
    rw [Ready, hk, Bool.true_and] at hr
    obtain ⟨cs, h1, h2⟩ := cols_of_ready hs hs
      ⟨rfl, fun i m m' h h' => by
        rw [h] at h'
        cases h'
        exact proper_alikeT (hs.2 m (List.mem_of_getElem? h))⟩ hk
    have h3 := idxAll_iff (rels_names h2) idxs
    rw [hr] at h3
    simp only [newCfg, h1, Option.isSome_eq_false_iff.mp h3 |> Option.isNone_iff_eq_none.mp]

/-! ## The rows -/

theorem aInitAll_W {s : MSet} : ∀ (cs : List ACol) (as : List AColumn), Rels s cs as →
    ∃ ws : List (W ACol),
      aInitAll s cs = .ok (ws.map fun w => w.q 0) ∧ cs = ws.map (·.k) ∧
      (∀ w ∈ ws, w.Good aAdvance) ∧
      maxN ws + 1 = aRowCount s as ∧ maxN ws < bound (ws.map fun w => w.q 0) ∧
      ∀ r, ws.mapM (fun w => aCell w.k (w.f r)) = some (aCells s as r)
  | [], [], _ => ⟨[], by simp [aInitAll, maxN, bound, aRowCount, aCells]⟩
  | [], _ :: _, h => by simp [Rels] at h
  | _ :: _, [], h => by simp [Rels] at h
  | c :: cs, a :: as, h => by
    obtain ⟨⟨hn, ht, y, hy, ⟨q, hq0, hq⟩, hlen, hty⟩, h'⟩ := rels_head h
    obtain ⟨ws, h1, h2, h3, h4, h5, h6⟩ := aInitAll_W cs as h'
    let w : W ACol := ⟨c, q, (aColumnOf s a).at ⟨a.ty, 1, [0]⟩, (aColumnOf s a).rows - 1⟩
    refine ⟨w :: ws, by simp [aInitAll, hy, h1, Res.map, w, hq0], by simp [w, ← h2], ?_, ?_, ?_, ?_⟩
    · intro w' hw'
      rcases List.mem_cons.mp hw' with rfl | hw'
      · exact hq
      · exact h3 w' hw'
    · have hc : maxN (w :: ws) = max ((aColumnOf s a).rows - 1) (maxN ws) := rfl
      have hr : aRowCount s (a :: as) = max (aColumnOf s a).rows (aRowCount s as) := rfl
      rw [hc, hr]
      omega
    · have hc : maxN (w :: ws) = max ((aColumnOf s a).rows - 1) (maxN ws) := rfl
      have : bound ((w :: ws).map fun w => w.q 0) =
          restLen y.rest + bound (ws.map fun w => w.q 0) := by
        simp [bound, w, hq0]; omega
      have hb : 1 ≤ bound (ws.map fun w => w.q 0) := by simp [bound]
      rw [hc, this]
      omega
    · intro r
      rw [List.mapM_cons, h6 r]
      have : aCell w.k (w.f r) = some ⟨a.name, (aColumnOf s a).at ⟨a.ty, 1, [0]⟩ r⟩ := by
        simp only [aCell, w, hn, ht]
        have := hty r
        generalize (aColumnOf s a).at ⟨a.ty, 1, [0]⟩ r = v at this
        rw [← this]
      rw [this]
      rfl

theorem mapM_some {α β : Type} (f : α → β) : ∀ l : List α,
    (l.mapM fun a => some (f a)) = some (l.map f)
  | [] => rfl
  | a :: l => by rw [List.mapM_cons, mapM_some f l]; rfl

theorem aRowsOf_ok {idxs : List (Name × List Name)} {s0 s : MSet} {rc : ARow}
    (hsch : rc.schema = shortName s) (hr : Rels s rc.cols (asIsColumns s0))
    (hix : idxAll rc.cols idxs = some rc.idxs) :
    aRowsOf s rc = .ok (asIsRows idxs s0 s) := by
  obtain ⟨ws, h1, h2, h3, h4, h5, h6⟩ := aInitAll_W _ _ hr
  have hn := rels_names hr
  simp only [aRowsOf, h1]
  rw [h2, makeRows_W ws h3 _ 0 (by omega) (Nat.zero_le _), Nat.sub_zero, ← List.range_eq_range',
    h4]
  have e : (fun r => (ws.mapM fun w => aCell w.k (w.f r)).map (mkRow rc.schema rc.idxs)) =
      fun r => some (aRowOf (shortName s) idxs (aCells s (asIsColumns s0) r)) := by
    funext r
    rw [h6 r, Option.map_some]
    have hnames : (aCells s (asIsColumns s0) r).map (·.name) = rc.cols.map (·.name) := by
      rw [hn]; simp [aCells, List.map_map, Function.comp_def]
    simp only [mkRow, aRowOf, hsch, idxAll_cells hnames idxs rc.idxs hix]
  rw [e, mapM_some]
  rfl

/-! ## The sets seen before -/

/-- The configuration a set gives. -/
def cfgOf (idxs : List (Name × List Name)) (u : MSet) : Option ARow :=
  match newCfg idxs u with
  | .ok rc => some rc
  | _ => none

theorem newCfg_schema {idxs : List (Name × List Name)} {u : MSet} {rc : ARow}
    (h : newCfg idxs u = .ok rc) : rc.schema = shortName u := by
  rw [newCfg] at h
  split at h
  · simp only at h
    split at h
    · cases h; rfl
    · cases h
  · cases h
  · cases h

theorem asIs_state (cfg : ACfg) (s : MSet) (key : Name) :
    (asIs cfg s).1.idxs = cfg.idxs ∧
    (asIs cfg s).1.rows.find? (·.schema == key) =
      (cfg.rows.find? (·.schema == key) <|>
        if shortName s = key then cfgOf cfg.idxs s else none) := by
  unfold asIs cfgOf
  cases hf : cfg.rows.find? (·.schema == shortName s) with
  | some rc =>
    refine ⟨rfl, ?_⟩
    by_cases hk : shortName s = key
    · rw [hk] at hf; simp [hf]
    · simp [hk]
  | none =>
    cases hn : newCfg cfg.idxs s with
    | fail => exact ⟨rfl, by simp⟩
    | crash => exact ⟨rfl, by simp⟩
    | ok rc =>
      refine ⟨rfl, ?_⟩
      have hs := newCfg_schema hn
      simp only [List.find?_cons]
      by_cases hk : shortName s = key
      · rw [hk] at hf
        simp [hs, hk, hf]
      · have : (rc.schema == key) = false := by simp [hs, hk]
        simp [this, hk]

theorem aAfter_state (idxs : List (Name × List Name)) (key : Name) :
    ∀ (l : List MSet) (cfg : ACfg), cfg.idxs = idxs →
    (l.foldl (fun st s => (asIs st s).1) cfg).idxs = idxs ∧
    (l.foldl (fun st s => (asIs st s).1) cfg).rows.find? (·.schema == key) =
      (cfg.rows.find? (·.schema == key) <|>
        l.findSome? fun u => if shortName u = key then cfgOf idxs u else none)
  | [], cfg, h => ⟨h, by simp⟩
  | s :: l, cfg, h => by
    obtain ⟨h1, h2⟩ := asIs_state cfg s key
    obtain ⟨h3, h4⟩ := aAfter_state idxs key l (asIs cfg s).1 (h1.trans h)
    refine ⟨h3, ?_⟩
    rw [List.foldl_cons, h4, h2, h, List.findSome?_cons]
    cases cfg.rows.find? (·.schema == key) with
    | some _ => simp
    | none =>
      cases (if shortName s = key then cfgOf idxs s else none) <;> simp

theorem findSome_find {α β : Type} {p : α → Bool} {f : α → Option β} : ∀ {l : List α},
    (∀ a ∈ l, (f a).isSome = p a) → l.findSome? f = (l.find? p).bind f
  | [], _ => rfl
  | a :: l, h => by
    have h1 := h a (List.mem_cons_self ..)
    have ih := findSome_find fun b hb => h b (List.mem_cons_of_mem _ hb)
    rw [List.findSome?_cons, List.find?_cons, ← h1, ih]
    cases hf : f a with
    | none => simp
    | some b => simp [hf]

/-- The rows of a set after any other sets. -/
theorem asIs_ok {idxs : List (Name × List Name)} {hist : List MSet} {s : MSet} (hs : Proper s)
    (hh : ∀ u ∈ hist, shortName u = shortName s → Proper u ∧ AlikeT u s) :
    (asIs (aAfter idxs hist) s).2 = asIsSpec idxs hist s := by
  obtain ⟨h1, h2⟩ := aAfter_state idxs (shortName s) hist ⟨idxs, []⟩ rfl
  have hself : AlikeT s s := ⟨rfl, fun i m m' h h' => by
    rw [h] at h'
    cases h'
    exact proper_alikeT (hs.2 m (List.mem_of_getElem? h))⟩
  have hall : ∀ u ∈ hist ++ [s], shortName u = shortName s → Proper u ∧ AlikeT u s := by
    intro u hu hk
    rcases List.mem_append.mp hu with hu | hu
    · exact hh u hu hk
    · rw [List.mem_singleton] at hu
      subst hu
      exact ⟨hs, hself⟩
  have hcfg : ∀ u ∈ hist ++ [s], shortName u = shortName s →
      (Ready idxs u = true → ∃ rc, newCfg idxs u = .ok rc ∧
        aRowsOf s rc = .ok (asIsRows idxs u s)) ∧
      (Ready idxs u = false → newCfg idxs u = .fail) := by
    intro u hu hk
    obtain ⟨hp, ha⟩ := hall u hu hk
    refine ⟨fun hr => ?_, newCfg_not hp⟩
    obtain ⟨rc, e1, e2, e3, e4⟩ := newCfg_ready hp hs ha hr
    exact ⟨rc, e1, aRowsOf_ok (e2.trans hk) e3 e4⟩
  have hsome : ∀ u ∈ hist, (if shortName u = shortName s then cfgOf idxs u else none).isSome =
      (decide (shortName u = shortName s) && Ready idxs u) := by
    intro u hu
    by_cases hk : shortName u = shortName s
    · obtain ⟨c1, c2⟩ := hcfg u (List.mem_append_left _ hu) hk
      cases hr : Ready idxs u with
      | true =>
        obtain ⟨rc, e1, _⟩ := c1 hr
        simp [hk, cfgOf, e1]
      | false => simp [hk, cfgOf, c2 hr]
    · simp [hk]
  have h3 : (aAfter idxs hist).rows.find? (·.schema == shortName s) =
      (hist.find? fun u => decide (shortName u = shortName s) && Ready idxs u).bind
        fun u => if shortName u = shortName s then cfgOf idxs u else none := by
    rw [← findSome_find hsome, aAfter]
    simpa using h2
  have h4 : (aAfter idxs hist).idxs = idxs := h1
  unfold asIs asIsSpec
  rw [h3, h4, List.find?_append]
  cases hf : hist.find? fun u => decide (shortName u = shortName s) && Ready idxs u with
  | some u =>
    have hk := List.find?_some hf
    simp only [Bool.and_eq_true, decide_eq_true_eq] at hk
    obtain ⟨rc, e1, e2⟩ :=
      (hcfg u (List.mem_append_left _ (List.mem_of_find?_eq_some hf)) hk.1).1 hk.2
    simp [hk.1, cfgOf, e1, e2]
  | none =>
    obtain ⟨c1, c2⟩ := hcfg s (by simp) rfl
    cases hr : Ready idxs s with
    | true =>
      obtain ⟨rc, e1, e2⟩ := c1 hr
      simp [e1, e2, hr]
    | false => simp [c2 hr, hr]

end Verif.Decomp
