import Verif.Decomp.Walk

/-!
# Proofs: the static decomposition
-/

namespace Verif.Decomp

/-! ## Finding metrics and members -/

theorem findIdx_find {α : Type} (p : α → Bool) :
    ∀ l : List α, (l.findIdx? p).bind (l[·]?) = l.find? p
  | [] => rfl
  | a :: l => by
    rw [List.findIdx?_cons, List.find?_cons]
    cases h : p a with
    | true => simp
    | false =>
      have ih := findIdx_find p l
      simp only [Bool.false_eq_true, if_false, ← ih]
      cases l.findIdx? p <;> simp

theorem findIdx_names {α : Type} (n : Name) :
    ∀ (l l' : List (Name × α)), l.map (·.1) = l'.map (·.1) →
    l.findIdx? (·.1 == n) = l'.findIdx? (·.1 == n)
  | [], [], _ => rfl
  | [], _ :: _, h => by simp at h
  | _ :: _, [], h => by simp at h
  | a :: l, b :: l', h => by
    simp only [List.map_cons, List.cons.injEq] at h
    rw [List.findIdx?_cons, List.findIdx?_cons, h.1, findIdx_names n l l' h.2]

theorem beq_fun {α : Type} (n : Name) :
    (fun x : Name × α => x.1 == n) = fun x => decide (x.1 = n) := by
  funext x; rw [Bool.eq_iff_iff]; simp

theorem metricOf_byName (s : MSet) (n : Name) :
    metricOf s n = ((byName s n).bind (s.metrics[·]?)).map (·.2) := by
  rw [byName, findIdx_find, metricOf, beq_fun]

theorem memberOf_find (r : Rec) (n : Name) :
    memberOf n r = ((find r n).bind (r[·]?)).map (·.2) := by
  rw [find, findIdx_find, memberOf, beq_fun]

theorem byName_alike {s t : MSet} (h : Alike s t) (n : Name) : byName s n = byName t n :=
  findIdx_names n _ _ h.1

theorem byName_lt {s : MSet} {n : Name} {i : Nat} (h : byName s n = some i) :
    ∃ m, s.metrics[i]? = some m ∧ metricOf s n = some m.2 := by
  have hlt : i < s.metrics.length := by
    rw [byName, List.findIdx?_eq_some_iff_getElem] at h
    exact h.1
  refine ⟨s.metrics[i], List.getElem?_eq_getElem hlt, ?_⟩
  rw [metricOf_byName, h]
  simp [List.getElem?_eq_getElem hlt]

theorem byName_none {s : MSet} {n : Name} (h : byName s n = none) : metricOf s n = none := by
  rw [metricOf_byName, h]; rfl

/-! ## Metric IDs that go with a set -/

/-- The position of the member asked for in an element. -/
def recFor (c : Col) : Elem → RecMid
  | .record r =>
    match c.member with
    | some n => .of (find r n)
    | none => .bad
  | _ => .bad

theorem recFor_shape {c : Col} {e e' : Elem} (h : shape e = shape e') :
    recFor c e = recFor c e' := by
  cases e <;> cases e' <;> simp [shape] at h <;> try rfl
  simp only [recFor]
  cases c.member with
  | none => rfl
  | some n => simp only [find]; rw [findIdx_names n _ _ h]

/-- The IDs go with the metric at position `i`. -/
def MAgrees (c : Col) (i : Nat) (m : ColMid) : Metric → Prop
  | .val v => m.mid = .at i v.ty
  | .recType => m.mid = .absent
  | .list es => m.mid = .at i tList ∧ ∀ e ∈ es, m.recMid = .unresolved ∨ m.recMid = recFor c e
  | .arr rs => m.mid = .at i tRecArray ∧ ∀ r ∈ rs, m.recMid = recFor c (.record r)

/-- The source is no metric. -/
def phony (c : Col) : Option Mid :=
  if c.src = nTimestamp then some .ts
  else if c.src = nProducer then some .producer
  else if c.src = nInstance then some .instance
  else none

/-- The IDs of a column go with a set. -/
def Agrees (c : Col) (m : ColMid) (t : MSet) : Prop :=
  match phony c with
  | some p => m.mid = p
  | none =>
    match byName t c.src with
    | none => m.mid = .absent
    | some i => ∀ x, t.metrics[i]? = some x → MAgrees c i m x.2

theorem resolve_eq (s : MSet) (c : Col) :
    resolve s c = match phony c with
      | some p => .ok ⟨p, .unresolved⟩
      | none =>
        match byName s c.src with
        | none => .ok ⟨.absent, .unresolved⟩
        | some i =>
          match s.metrics[i]? with
          | none => .crash
          | some m => resolveMetric c i m.2 := by
  unfold resolve phony
  split <;> try rfl
  split <;> try rfl
  split <;> try rfl

/-- IDs found in a metric go with all metrics of its kind. -/
theorem resolveMetric_agrees {c : Col} {i : Nat} {x y : Metric} (hu : Usable c.member x)
    (ha : x.alike y) : ∃ m, resolveMetric c i x = .ok m ∧ MAgrees c i m y := by
  cases x with
  | val v =>
    cases y with
    | val v' =>
      simp only [Metric.alike] at ha
      have hv : ¬ v.ty > tLastPrim := Nat.not_lt.mpr hu
      exact ⟨⟨.at i v.ty, .bad⟩, by simp [resolveMetric, hv], by simp [MAgrees, ha]⟩
    | _ => exact ha.elim
  | recType =>
    cases y with
    | recType => exact ⟨⟨.absent, .unresolved⟩, rfl, rfl⟩
    | _ => exact ha.elim
  | list es =>
    cases y with
    | list es' =>
      simp only [Metric.alike] at ha
      obtain ⟨_, hv, hr⟩ := hu
      cases es with
      | nil => exact ⟨⟨.at i tList, .unresolved⟩, rfl, rfl, fun _ _ => .inl rfl⟩
      | cons e es =>
        refine ⟨⟨.at i tList, recFor c e⟩, ?_, rfl,
          fun e' he' => .inr (recFor_shape (ha e (List.mem_cons_self ..) e' he'))⟩
        cases e with
        | val v =>
          have := (hv v (List.mem_cons_self ..)).2
          simp [resolveMetric, this, recFor]
        | lst => rfl
        | record r =>
          simp only [resolveMetric, recFor]
          cases c.member <;> rfl
    | _ => exact ha.elim
  | arr rs =>
    cases y with
    | arr rs' =>
      simp only [Metric.alike] at ha
      cases rs with
      | nil => exact absurd rfl hu.1
      | cons r rs =>
        refine ⟨⟨.at i tRecArray, recFor c (.record r)⟩, ?_, rfl, fun r' hr' => ?_⟩
        · simp only [resolveMetric, recFor]
          cases c.member <;> rfl
        · exact recFor_shape (e := .record r) (e' := .record r') (by simp [shape, ha r (List.mem_cons_self ..) r' hr'])
    | _ => exact ha.elim

/-- IDs found in a set go with all sets that have a metric of the same kind there. -/
theorem resolve_agrees' {c : Col} {s t : MSet}
    (hu : ∀ m, metricOf s c.src = some m → Usable c.member m)
    (hb' : byName s c.src = byName t c.src)
    (ha : ∀ (i : Nat) m m', byName s c.src = some i → s.metrics[i]? = some m →
      t.metrics[i]? = some m' → m.2.alike m'.2) :
    ∃ m, resolve s c = .ok m ∧ Agrees c m t := by
  rw [resolve_eq]
  unfold Agrees
  cases phony c with
  | some p => exact ⟨_, rfl, rfl⟩
  | none =>
    simp only [← hb']
    cases hb : byName s c.src with
    | none => exact ⟨_, rfl, rfl⟩
    | some i =>
      obtain ⟨x, hx, hm⟩ := byName_lt hb
      obtain ⟨y, hy, _⟩ := byName_lt (hb'.symm.trans hb)
      obtain ⟨m, h1, h2⟩ := resolveMetric_agrees (i := i) (hu _ hm) (ha i x y hb hx hy)
      refine ⟨m, by simp [hx, h1], ?_⟩
      intro z hz
      rw [hy] at hz
      cases hz
      exact h2

/-- IDs found in a set go with all sets of its kind. -/
theorem resolve_agrees {c : Col} {s t : MSet}
    (hu : ∀ m, metricOf s c.src = some m → Usable c.member m) (ha : Alike s t) :
    ∃ m, resolve s c = .ok m ∧ Agrees c m t :=
  resolve_agrees' hu (byName_alike ha c.src) fun i m m' _ h1 h2 => ha.2 i m m' h1 h2

/-- A metric a column can be made of is like itself. -/
theorem usable_alike {mb : Option Name} {m : Metric} (h : Usable mb m) : m.alike m := by
  cases m with
  | val v => rfl
  | recType => trivial
  | list es =>
    obtain ⟨⟨sh, hs⟩, _⟩ := h
    exact fun e he e' he' => (hs e he).trans (hs e' he').symm
  | arr rs =>
    obtain ⟨_, ns, hs⟩ := h
    exact fun e he e' he' => (hs e he).trans (hs e' he').symm

/-- IDs found in a set go with it. -/
theorem resolve_agrees_self {c : Col} {s : MSet}
    (hu : ∀ m, metricOf s c.src = some m → Usable c.member m) :
    ∃ m, resolve s c = .ok m ∧ Agrees c m s := by
  refine resolve_agrees' hu rfl fun i m m' hb h1 h2 => ?_
  rw [h1] at h2
  cases h2
  obtain ⟨x, hx, hm⟩ := byName_lt hb
  rw [h1] at hx
  cases hx
  exact usable_alike (hu _ hm)

/-- What is learnt from a set goes with all sets of its kind. -/
theorem initMetric_agrees {c : Col} {i : Nat} {m : ColMid} {x y : Metric} (ha : x.alike y)
    (hm : MAgrees c i m y) : MAgrees c i ⟨m.mid, (initMetric c m.recMid x).1⟩ y := by
  have harr : ∀ rs, (initMetric c m.recMid (.arr rs)).1 = m.recMid := by
    intro rs
    simp only [initMetric]
    split <;> try rfl
    split <;> rfl
  cases y with
  | val v => exact hm
  | recType => exact hm
  | arr rs =>
    cases x with
    | arr rs' => rw [harr]; exact hm
    | _ => exact ha.elim
  | list es =>
    cases x with
    | list es' =>
      refine ⟨hm.1, fun e he => ?_⟩
      have h := hm.2 e he
      simp only [Metric.alike] at ha
      cases es' with
      | nil => exact h
      | cons e' es' =>
        have hs := ha e' (List.mem_cons_self ..) e he
        cases e' with
        | val v => exact h
        | lst => exact h
        | record r =>
          simp only [initMetric]
          cases hrm : m.recMid with
          | bad => rw [hrm] at h; exact h
          | «at» k => rw [hrm] at h; exact h
          | unresolved =>
            have hf := recFor_shape (c := c) hs
            simp only [initRec]
            cases hn : c.member with
            | none => exact .inl rfl
            | some n =>
              rw [← hf]
              cases hfd : find r n <;> simp [recFor, hn, hfd, RecMid.of]
    | _ => exact ha.elim

theorem initCol_agrees {c : Col} {m : ColMid} {s t : MSet} (ha : Alike s t)
    (hm : Agrees c m t) : Agrees c (initCol s c m).1 t := by
  unfold Agrees at hm ⊢
  unfold initCol
  cases hp : phony c with
  | some p =>
    rw [hp] at hm
    simp only at hm ⊢
    have : p = .ts ∨ p = .producer ∨ p = .instance := by
      unfold phony at hp
      split at hp
      · cases hp; exact .inl rfl
      · split at hp
        · cases hp; exact .inr (.inl rfl)
        · split at hp
          · cases hp; exact .inr (.inr rfl)
          · cases hp
    rcases this with rfl | rfl | rfl <;> simp [hm]
  | none =>
    rw [hp] at hm
    simp only at hm ⊢
    cases hb : byName t c.src with
    | none => simp only [hb] at hm; simp [hm]
    | some i =>
      simp only [hb] at hm
      intro y hy
      have hmy := hm y hy
      cases hmid : m.mid with
      | ts => exact hmy
      | producer => exact hmy
      | «instance» => exact hmy
      | absent => exact hmy
      | «at» i' ty =>
        have hi : i' = i := by
          cases hy2 : y.2 <;> rw [hy2] at hmy <;> simp [MAgrees, hmid] at hmy <;> omega
        subst hi
        simp only
        cases hx : s.metrics[i']? with
        | none => exact hmy
        | some x =>
          simp only
          split
          · exact hmy
          · have := initMetric_agrees (ha.2 i' x y hx hy) hmy
            rw [hmid] at this
            exact this

end Verif.Decomp
