import Verif.Decomp.Proofs

/-!
# Proofs: the static decomposition gives the rows specified
-/

namespace Verif.Decomp

theorem columnOf_eq (s : MSet) (c : Col) :
    columnOf s c = match phony c with
      | some .ts => .same ⟨tTimestamp, 1, s.ts⟩
      | some .producer => .same ⟨tCharArray, s.producer.length + 1, s.producer⟩
      | some .instance => .same ⟨tCharArray, s.inst.length + 1, s.inst⟩
      | some _ => .same (fill0 c)
      | none =>
        match metricOf s c.src with
        | none => .same (fill0 c)
        | some x => metricCol c.member (fill0 c) x := by
  unfold columnOf phony fill0
  by_cases h1 : c.src = nTimestamp
  · have h1' : c.src = "timestamp".toList := h1
    rw [if_pos h1', if_pos h1]
  · have h1' : ¬ c.src = "timestamp".toList := h1
    rw [if_neg h1', if_neg h1]
    by_cases h2 : c.src = nProducer
    · have h2' : c.src = "producer".toList := h2
      rw [if_pos h2', if_pos h2]
    · have h2' : ¬ c.src = "producer".toList := h2
      rw [if_neg h2', if_neg h2]
      by_cases h3 : c.src = nInstance
      · have h3' : c.src = "instance".toList := h3
        rw [if_pos h3', if_pos h3]
      · have h3' : ¬ c.src = "instance".toList := h3
        rw [if_neg h3', if_neg h3]
        simp only
        cases metricOf s c.src with
        | none => rfl
        | some x => cases x <;> rfl

/-- A column is walked as specified. -/
def WalksAs (c : Col) (rm : RecMid) (x : MCol) (col : Column) : Prop :=
  Walk advance (c, rm) x (col.at (fillEnd c)) (col.rows - 1) ∧ col.rows ≤ restLen x.rest + 1

theorem walks_same {c : Col} {rm : RecMid} {v : Val} : WalksAs c rm ⟨v, .none⟩ (.same v) :=
  ⟨walk_same rfl fun _ => rfl, Nat.le_refl _⟩

theorem get_of_find {r : Rec} {n : Name} {k : Nat} (h : find r n = some k) :
    ∃ v, get r k = .ok v ∧ memberOf n r = some v := by
  have hlt : k < r.length := by
    rw [find, List.findIdx?_eq_some_iff_getElem] at h
    exact h.1
  refine ⟨r[k].2, by simp [get, List.getElem?_eq_getElem hlt], ?_⟩
  rw [memberOf_find, h]
  simp [List.getElem?_eq_getElem hlt]

/-- The members at one position, for records of one kind. -/
theorem member_same {r r' : Rec} {n : Name} {k : Nat} (h : find r n = some k)
    (hs : r.map (·.1) = r'.map (·.1)) : find r' n = some k := by
  rw [← h]; exact (findIdx_names n _ _ hs).symm

theorem filterMap_all {α β : Type} {f : α → Option β} {g : α → β} :
    ∀ {l : List α}, (∀ a ∈ l, f a = some (g a)) → l.filterMap f = l.map g
  | [], _ => rfl
  | a :: l, h => by
    rw [List.filterMap_cons, h a (List.mem_cons_self ..), List.map_cons,
      filterMap_all fun b hb => h b (List.mem_cons_of_mem _ hb)]

theorem filterMap_none {α β : Type} {f : α → Option β} :
    ∀ {l : List α}, (∀ a ∈ l, f a = none) → l.filterMap f = []
  | [], _ => rfl
  | a :: l, h => by
    rw [List.filterMap_cons, h a (List.mem_cons_self ..),
      filterMap_none fun b hb => h b (List.mem_cons_of_mem _ hb)]

/-- The walk along a list of records of one kind. -/
theorem walks_records {c : Col} {n : Name} {k : Nat} {r : Rec} {es : List Elem} {v : Val}
    (hn : c.member = some n) (hk : find r n = some k) (hv : get r k = .ok v)
    (hs : ∀ e ∈ es, shape e = .record (r.map (·.1))) :
    WalksAs c (.at k) ⟨v, .list es⟩
      (Column.ofVals .each (fill0 c) ((Elem.record r :: es).filterMap (elemVal c.member))) := by
  let g : Elem → Val := fun e => (elemVal c.member e).getD v
  have hg : ∀ e ∈ Elem.record r :: es, elemVal c.member e = some (g e) ∧
      ∀ v' es', advance (c, .at k) ⟨v', .list (e :: es')⟩ = .ok (⟨g e, .list es'⟩, true) := by
    intro e he
    have he' : ∃ r', e = .record r' ∧ r.map (·.1) = r'.map (·.1) := by
      rcases List.mem_cons.mp he with rfl | he
      · exact ⟨r, rfl, rfl⟩
      · have := hs e he
        cases e with
        | record r' => exact ⟨r', rfl, by simpa [shape] using this.symm⟩
        | val _ => simp [shape] at this
        | lst => simp [shape] at this
    obtain ⟨r', rfl, hr⟩ := he'
    obtain ⟨w, h1, h2⟩ := get_of_find (member_same hk hr)
    have h3 : elemVal c.member (.record r') = some w := by simp [elemVal, hn, h2]
    have h4 : g (.record r') = w := by simp [g, h3]
    refine ⟨by rw [h4, h3], fun v' es' => ?_⟩
    simp [advance, hn, h1, Res.map, h4]
  rw [filterMap_all fun e he => (hg e he).1, List.map_cons]
  have hv0 : g (.record r) = v := by
    obtain ⟨w, h1, h2⟩ := get_of_find hk
    rw [hv] at h1
    cases h1
    simp [g, elemVal, hn, h2]
  rw [hv0]
  refine ⟨?_, by simp [Column.ofVals, Column.rows, restLen]⟩
  have := walk_list (adv := advance) (k := (c, .at k)) (d := fillEnd c) g (fun _ => rfl) rfl es v
    fun e he => (hg e (List.mem_cons_of_mem _ he)).2
  have e : (Column.ofVals .each (fill0 c) (v :: es.map g)).rows - 1 = es.length := by
    simp [Column.ofVals, Column.rows]
  rw [e]
  exact this

/-- The walk along a list of values. -/
theorem walks_values {c : Col} {rm : RecMid} {es : List Elem} {v : Val}
    (hn : c.member = none)
    (hs : ∀ e ∈ es, ∃ w, e = .val w ∧ w.ty ≤ tLastPrim) :
    WalksAs c rm ⟨v, .list es⟩
      (Column.ofVals .each (fill0 c) ((Elem.val v :: es).filterMap (elemVal c.member))) := by
  let g : Elem → Val := fun e => (elemVal c.member e).getD v
  have hg : ∀ e ∈ es, elemVal c.member e = some (g e) ∧
      ∀ v' es', advance (c, rm) ⟨v', .list (e :: es')⟩ = .ok (⟨g e, .list es'⟩, true) := by
    intro e he
    obtain ⟨w, rfl, hw⟩ := hs e he
    have h3 : elemVal c.member (.val w) = some w := by simp [elemVal, hn]
    have h4 : g (.val w) = w := by simp [g, h3]
    refine ⟨by rw [h4, h3], fun v' es' => ?_⟩
    simp [advance, hn, Nat.not_lt.mpr hw, h4]
  have h0 : elemVal c.member (.val v) = some v := by simp [elemVal, hn]
  rw [List.filterMap_cons, h0, filterMap_all fun e he => (hg e he).1]
  refine ⟨?_, by simp [Column.ofVals, Column.rows, restLen]⟩
  have := walk_list (adv := advance) (k := (c, rm)) (d := fillEnd c) g (fun _ => rfl) rfl es v
    fun e he => (hg e he).2
  have e : (Column.ofVals .each (fill0 c) (v :: es.map g)).rows - 1 = es.length := by
    simp [Column.ofVals, Column.rows]
  rw [e]
  exact this

/-- The walk along an array. -/
theorem walks_array {c : Col} {n : Name} {k : Nat} {r : Rec} {rs : List Rec} {v : Val}
    (hn : c.member = some n) (hk : find r n = some k) (hv : get r k = .ok v)
    (hs : ∀ r' ∈ rs, r.map (·.1) = r'.map (·.1)) :
    WalksAs c (.at k) ⟨v, .arr rs⟩
      (Column.ofVals .array (fill0 c)
        ((r :: rs).filterMap fun r => c.member.bind fun n => memberOf n r)) := by
  let g : Rec → Val := fun r => (memberOf n r).getD v
  have hg : ∀ r' ∈ r :: rs, (c.member.bind fun n => memberOf n r') = some (g r') ∧
      ∀ v' rs', advance (c, .at k) ⟨v', .arr (r' :: rs')⟩ = .ok (⟨g r', .arr rs'⟩, false) := by
    intro r' hr'
    have hr : r.map (·.1) = r'.map (·.1) := by
      rcases List.mem_cons.mp hr' with rfl | h
      · rfl
      · exact hs r' h
    obtain ⟨w, h1, h2⟩ := get_of_find (member_same hk hr)
    refine ⟨by simp [hn, g, h2], fun v' rs' => ?_⟩
    simp [advance, h1, Res.map, g, h2]
  rw [filterMap_all fun e he => (hg e he).1, List.map_cons]
  have hv0 : g r = v := by
    obtain ⟨w, h1, h2⟩ := get_of_find hk
    rw [hv] at h1
    cases h1
    simp [g, h2]
  rw [hv0]
  refine ⟨?_, by simp [Column.ofVals, Column.rows, restLen]⟩
  have := walk_arr (adv := advance) (k := (c, .at k)) (d := fillEnd c) g (fun _ => rfl) rfl rs v
    fun e he => (hg e (List.mem_cons_of_mem _ he)).2
  exact this

theorem initMetric_ok {c : Col} {i : Nat} {m : ColMid} {x : Metric}
    (hu : Usable c.member x) (hm : MAgrees c i m x) (hx : x ≠ .recType) :
    ∃ y, (initMetric c m.recMid x).2 = .ok y ∧ WalksAs c (initMetric c m.recMid x).1 y
      (metricCol c.member (fill0 c) x) := by
  cases x with
  | recType => exact absurd rfl hx
  | val v =>
    have hv : ¬ v.ty > tLastPrim := Nat.not_lt.mpr hu
    exact ⟨⟨v, .none⟩, by simp [initMetric, hv], walks_same⟩
  | arr rs =>
    obtain ⟨hne, ns, hns⟩ := hu
    cases rs with
    | nil => exact absurd rfl hne
    | cons r rs =>
      have hrm := hm.2 r (List.mem_cons_self ..)
      have hns0 := hns r (List.mem_cons_self ..)
      simp only [recFor] at hrm
      cases hn : c.member with
      | none =>
        simp only [hn] at hrm
        refine ⟨⟨fill0 c, .none⟩, by simp [initMetric, hrm], ?_⟩
        simp only [metricCol]
        rw [filterMap_none (f := fun r => (none : Option Name).bind fun n => memberOf n r)
          fun _ _ => rfl]
        exact walks_same
      | some n =>
        simp only [hn] at hrm
        cases hk : find r n with
        | none =>
          simp only [hk, RecMid.of] at hrm
          refine ⟨⟨fill0 c, .none⟩, by simp [initMetric, hrm], ?_⟩
          simp only [metricCol]
          rw [filterMap_none (f := fun r => (some n).bind fun n => memberOf n r)]
          · exact walks_same
          · intro r' hr'
            have : find r' n = none := by
              rw [← hk]
              exact findIdx_names n _ _ ((hns r' hr').trans hns0.symm)
            simp [memberOf_find, this]
        | some k =>
          simp only [hk, RecMid.of] at hrm
          obtain ⟨v, hv, _⟩ := get_of_find hk
          refine ⟨⟨v, .arr rs⟩, by simp [initMetric, hrm, hv, Res.map], ?_⟩
          have := walks_array hn hk hv (rs := rs)
            fun r' hr' => hns0.trans (hns r' (List.mem_cons_of_mem _ hr')).symm
          simp only [hn] at this
          simpa [initMetric, hrm, metricCol] using this
  | list es =>
    obtain ⟨⟨sh, hsh⟩, hval, hrec⟩ := hu
    cases es with
    | nil => exact ⟨⟨fill0 c, .none⟩, rfl, walks_same⟩
    | cons e es =>
      have hrm := hm.2 e (List.mem_cons_self ..)
      have hsh0 := hsh e (List.mem_cons_self ..)
      have hsh' : ∀ e' ∈ es, shape e' = shape e := fun e' he' =>
        (hsh e' (List.mem_cons_of_mem _ he')).trans hsh0.symm
      cases e with
      | lst =>
        refine ⟨⟨fill0 c, .none⟩, rfl, ?_⟩
        simp only [metricCol]
        rw [filterMap_none (f := elemVal c.member)]
        · exact walks_same
        · intro e he
          rcases List.mem_cons.mp he with rfl | he
          · rfl
          · have := hsh' e he
            cases e <;> simp [shape] at this
            rfl
      | val v =>
        have hv := hval v (List.mem_cons_self ..)
        refine ⟨⟨v, .list es⟩, by simp [initMetric, Nat.not_lt.mpr hv.1], ?_⟩
        refine walks_values hv.2 fun e he => ?_
        have hs := hsh' e he
        cases e with
        | val w => exact ⟨w, rfl, (hval w (List.mem_cons_of_mem _ he)).1⟩
        | record _ => simp [shape] at hs
        | lst => simp [shape] at hs
      | record r =>
        obtain ⟨n, hn⟩ := Option.ne_none_iff_exists'.mp (hrec r (List.mem_cons_self ..))
        simp only [recFor, hn] at hrm
        cases hk : find r n with
        | none =>
          have h1 : (initMetric c m.recMid (.list (.record r :: es))).2 =
              .ok ⟨fill0 c, .none⟩ := by
            simp only [hk, RecMid.of] at hrm
            rcases hrm with hrm | hrm <;> simp [initMetric, initRec, hrm, hn, hk]
          refine ⟨_, h1, ?_⟩
          simp only [metricCol]
          rw [filterMap_none (f := elemVal c.member)]
          · exact walks_same
          · intro e he
            have : shape e = .record (r.map (·.1)) := by
              rcases List.mem_cons.mp he with rfl | he
              · rfl
              · exact hsh' e he
            cases e with
            | val _ => simp [shape] at this
            | lst => simp [shape] at this
            | record r' =>
              have hf : find r' n = none := by
                rw [← hk]
                exact findIdx_names n _ _ (by simpa [shape] using this)
              simp [elemVal, hn, memberOf_find, hf]
        | some k =>
          obtain ⟨v, hv, _⟩ := get_of_find hk
          have h1 : initMetric c m.recMid (.list (.record r :: es)) =
              (.at k, .ok ⟨v, .list es⟩) := by
            simp only [hk, RecMid.of] at hrm
            rcases hrm with hrm | hrm <;> simp [initMetric, initRec, hrm, hn, hk, hv, Res.map]
          refine ⟨_, by rw [h1], ?_⟩
          rw [h1]
          exact walks_records hn hk hv fun e he => hsh' e he

theorem initCol_ok {c : Col} {m : ColMid} {s : MSet} (hm : Agrees c m s)
    (hu : ∀ x, metricOf s c.src = some x → Usable c.member x) :
    ∃ y, (initCol s c m).2 = .ok y ∧ WalksAs c (initCol s c m).1.recMid y (columnOf s c) := by
  rw [columnOf_eq]
  unfold Agrees at hm
  cases hp : phony c with
  | some p =>
    rw [hp] at hm
    have : p = .ts ∨ p = .producer ∨ p = .instance := by
      unfold phony at hp
      split at hp
      · cases hp; exact .inl rfl
      · split at hp
        · cases hp; exact .inr (.inl rfl)
        · split at hp
          · cases hp; exact .inr (.inr rfl)
          · cases hp
    simp only at hm
    rcases this with rfl | rfl | rfl <;>
      exact ⟨_, by simp only [initCol, hm], walks_same⟩
  | none =>
    rw [hp] at hm
    simp only at hm ⊢
    cases hb : byName s c.src with
    | none =>
      simp only [hb] at hm
      rw [byName_none hb]
      exact ⟨_, by simp only [initCol, hm], walks_same⟩
    | some i =>
      obtain ⟨x, hx, hmx⟩ := byName_lt hb
      simp only [hb] at hm
      have hma := hm x hx
      rw [hmx]
      by_cases hrt : x.2 = .recType
      · rw [hrt] at hma ⊢
        simp only [MAgrees] at hma
        exact ⟨_, by simp only [initCol, hma], walks_same⟩
      · have hmid : m.mid = .at i x.2.ty := by
          cases hx2 : x.2 with
          | val v => rw [hx2] at hma; exact hma
          | recType => exact absurd hx2 hrt
          | list es => rw [hx2] at hma; exact hma.1
          | arr rs => rw [hx2] at hma; exact hma.1
        obtain ⟨y, h1, h2⟩ := initMetric_ok (hu _ hmx) hma hrt
        have hi : initCol s c m =
            (⟨m.mid, (initMetric c m.recMid x.2).1⟩, (initMetric c m.recMid x.2).2) := by
          simp [initCol, hmid, hx]
        refine ⟨y, by rw [hi]; exact h1, ?_⟩
        rw [hi]
        revert h2
        cases x.2 <;> exact fun h => h

/-! ## All columns -/

theorem mapM_map_opt {α β γ : Type} (f : β → Option γ) (g : α → β) :
    ∀ l : List α, (l.map g).mapM f = l.mapM fun a => f (g a)
  | [] => rfl
  | a :: l => by rw [List.map_cons, List.mapM_cons, List.mapM_cons, mapM_map_opt f g l]

theorem initCols_ok {s : MSet} : ∀ (cols : List Col) (ms : List ColMid),
    ms.length = cols.length → (∀ p ∈ cols.zip ms, Agrees p.1 p.2 s) → Fits s cols →
    ∃ ws : List (W (Col × RecMid)),
      (initCols s (cols.zip ms)).2 = .ok (ws.map fun w => w.q 0) ∧
      cols.zip ((initCols s (cols.zip ms)).1.map (·.recMid)) = ws.map (·.k) ∧
      (∀ w ∈ ws, w.Good advance) ∧
      ws.map (fun w => (w.k.1, w.f, w.n)) = cols.map (fun c =>
        (c, (columnOf s c).at (fillEnd c), (columnOf s c).rows - 1)) ∧
      maxN ws < bound (ws.map fun w => w.q 0) ∧
      (initCols s (cols.zip ms)).1 = (cols.zip ms).map fun p => (initCol s p.1 p.2).1
  | [], ms, _, _, _ => ⟨[], by simp [initCols, maxN, bound]⟩
  | c :: cols, [], h, _, _ => by simp at h
  | c :: cols, m :: ms, hl, ha, hf => by
    obtain ⟨ws, h1, h2, h3, h4, h5, h6⟩ := initCols_ok cols ms (by simpa using hl)
      (fun p hp => ha p (List.mem_cons_of_mem _ hp)) fun c' hc' => hf c' (List.mem_cons_of_mem _ hc')
    obtain ⟨y, hy, ⟨q, hq0, hq⟩, hlen⟩ : ∃ y, (initCol s c m).2 = .ok y ∧
        WalksAs c (initCol s c m).1.recMid y (columnOf s c) := initCol_ok (ha (c, m) (List.mem_cons_self ..))
      (hf c (List.mem_cons_self ..))
    have hi : initCol s c m = ((initCol s c m).1, .ok y) := by rw [← hy]
    have hr : initCols s ((c, m) :: cols.zip ms) =
        ((initCol s c m).1 :: (initCols s (cols.zip ms)).1,
         (initCols s (cols.zip ms)).2.map (y :: ·)) := by
      rw [initCols, hi]
    let w : W (Col × RecMid) := ⟨(c, (initCol s c m).1.recMid), q,
      (columnOf s c).at (fillEnd c), (columnOf s c).rows - 1⟩
    refine ⟨w :: ws, ?_⟩
    rw [List.zip_cons_cons, hr]
    refine ⟨by simp [h1, Res.map, w, hq0], by simp [h2, w], ?_, by simp [h4, w], ?_, ?_⟩
    · intro w' hw'
      rcases List.mem_cons.mp hw' with rfl | hw'
      · exact hq
      · exact h3 w' hw'
    · have hc : maxN (w :: ws) = max w.n (maxN ws) := rfl
      rw [hc]
      have : bound ((w :: ws).map fun w => w.q 0) =
          restLen y.rest + bound (ws.map fun w => w.q 0) := by
        simp [bound, w, hq0]; omega
      rw [this]
      have hn : w.n = (columnOf s c).rows - 1 := rfl
      have hb : 1 ≤ bound (ws.map fun w => w.q 0) := by simp [bound]
      omega
    · simp [h6]

theorem maxN_rowCount {s : MSet} {cols : List Col} {ws : List (W (Col × RecMid))}
    (h : ws.map (fun w => (w.k.1, w.f, w.n)) = cols.map (fun c =>
        (c, (columnOf s c).at (fillEnd c), (columnOf s c).rows - 1))) :
    maxN ws + 1 = rowCount s cols := by
  have h1 : ws.map (·.n) = cols.map fun c => (columnOf s c).rows - 1 := by
    have := congrArg (List.map fun p : Col × (Nat → Val) × Nat => p.2.2) h
    simpa [List.map_map, Function.comp_def] using this
  rw [maxN, h1, rowCount]
  clear h h1 ws
  induction cols with
  | nil => rfl
  | cons c cols ih =>
    simp only [List.map_cons, List.foldr_cons] at ih ⊢
    have : 1 ≤ (cols.map fun c => (columnOf s c).rows).foldr max 1 := by omega
    omega

theorem rowWith_ok {st : RowSt} {s : MSet} {ms : List ColMid}
    (hl : ms.length = st.cfg.cols.length)
    (ha : ∀ p ∈ st.cfg.cols.zip ms, Agrees p.1 p.2 s) (hf : Fits s st.cfg.cols) :
    (rowWith st s ms).2 = Res.ofOption (rowsOf s st.cfg) ∧
    (rowWith st s ms).1 = ⟨st.cfg, upsert s.digest
      ((st.cfg.cols.zip ms).map fun p => (initCol s p.1 p.2).1) st.mids⟩ := by
  obtain ⟨ws, h1, h2, h3, h4, h5, h6⟩ := initCols_ok st.cfg.cols ms hl ha hf
  refine ⟨?_, by simp [rowWith, h6]⟩
  simp only [rowWith, h1, h2]
  rw [makeRows_W ws h3 _ 0 (by omega) (Nat.zero_le _), Nat.sub_zero, ← List.range_eq_range',
    maxN_rowCount h4, rowsOf]
  congr 2
  funext r
  have e : (ws.mapM fun w => cell w.k (w.f r)) =
      (ws.map fun w => (w.k.1, w.f, w.n)).mapM
        fun p => if p.1.type ≠ (p.2.1 r).ty then none else some (Cell.mk p.1.dst (p.2.1 r)) := by
    rw [mapM_map_opt]; rfl
  rw [e, h4, mapM_map_opt]
  have e2 : (fun c : Col => if c.type ≠ ((columnOf s c).at (fillEnd c) r).ty then none
      else some (Cell.mk c.dst ((columnOf s c).at (fillEnd c) r))) = cellOf s r := by
    funext c
    simp only [cellOf, fillEnd]
    by_cases hc : c.type = ((columnOf s c).at ⟨c.type, c.arrayLen, c.fill⟩ r).ty
    · simp [← hc]
    · simp [hc, Ne.symm hc]
  rw [e2]
  rfl

end Verif.Decomp
