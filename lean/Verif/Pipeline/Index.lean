import Verif.Pipeline.Full

namespace Verif.Pipeline

/-! ## The metrics that are stored -/

/-- schemas with one digest have the same metrics -/
def DigestsTell (es : List Ev) : Prop :=
  ∀ i j c d, Ev.looked i (some c) ∈ es → Ev.looked j (some d) ∈ es → c.digest = d.digest → c.names = d.names

/-- the metrics a policy stores: those of its configuration, or if it names none those of a set it applies to -/
def MetricsOf (g : Cfg) (p : Nat) (es : List Ev) (l : List Nat) : Prop :=
  (g.metrics p ≠ [] → l = g.metrics p) ∧
  (g.metrics p = [] → ∃ i c, g.applies p i = true ∧ Ev.looked i (some c) ∈ es ∧ l = c.names)

theorem metricsOf_mono {g : Cfg} {p : Nat} {es : List Ev} {e : Ev} {l : List Nat} (h : MetricsOf g p es l) :
    MetricsOf g p (es ++ [e]) l :=
  ⟨h.1, fun h0 => by
    obtain ⟨i, c, h1, h2, h3⟩ := h.2 h0
    exact ⟨i, c, h1, List.mem_append_left _ h2, h3⟩⟩

/-- what holds of a policy without a decomposition -/
structure PolIx (g : Cfg) (p : Nat) (es : List Ev) (x : Pol) : Prop where
  list : x.list = g.metrics p ∨ MetricsOf g p es x.list
  handle : x.handle = true → MetricsOf g p es x.list ∧ ∃ i c, Ev.looked i (some c) ∈ es ∧ x.digest = some c.digest ∧
    indexes c.names x.list = some x.arr

theorem openStore_ix {g : Cfg} {p i : Nat} {es : List Ev} {x : Pol} {c : Content} {ok : Bool}
    (h : PolIx g p es x) (hh : x.handle = false) (hi : Ev.looked i (some c) ∈ es) (ha : g.applies p i = true) :
    PolIx g p es (openStore x c ok).1 ∧ (∀ d, x.digest = some d → (openStore x c ok).1.digest = some d) ∧
      ((openStore x c ok).2 = true → (openStore x c ok).1.digest = some c.digest) := by
  have key : ∀ y : Pol, y.handle = false → y.digest = x.digest →
      MetricsOf g p es y.list →
      (let r := (if y.digest.any (· ≠ c.digest) then ({ y with arr := [] }, false)
        else match indexes c.names y.list with
          | none => ({ y with arr := [] }, false)
          | some ks => if ok then ({ y with arr := ks, handle := true, digest := some c.digest }, true)
            else ({ y with arr := [] }, false) : Pol × Bool)
       PolIx g p es r.1 ∧ (∀ d, x.digest = some d → r.1.digest = some d) ∧ (r.2 = true → r.1.digest = some c.digest)) := by
    intro y hy hd hm
    have bad : PolIx g p es { y with arr := [] } := ⟨.inr hm, fun h => by
      have : y.handle = true := h
      rw [hy] at this; cases this⟩
    dsimp only
    split
    · exact ⟨bad, fun d h => by rw [← hd] at h; exact h, fun h => by cases h⟩
    · next hn =>
      split
      · exact ⟨bad, fun d h => by rw [← hd] at h; exact h, fun h => by cases h⟩
      · next ks hk =>
        split
        · refine ⟨⟨.inr hm, fun _ => ⟨hm, i, c, hi, rfl, hk⟩⟩, ?_, fun _ => rfl⟩
          intro d h
          rw [hd, h] at hn
          simp only [ne_eq, decide_not, Option.any_some, Bool.not_eq_eq_eq_not, Bool.not_true,
            decide_eq_false_iff_not, Decidable.not_not] at hn
          rw [hn]
        · exact ⟨bad, fun d h => by rw [← hd] at h; exact h, fun h => by cases h⟩
  unfold openStore
  cases hl : x.list.isEmpty with
  | true =>
    have hl : x.list = [] := List.isEmpty_iff.mp hl
    simp only [if_true]
    apply key { x with list := c.names } hh rfl
    have hm0 : g.metrics p = [] := by
      rcases h.list with h | h
      · rw [← h, hl]
      · apply Classical.byContradiction
        intro hne
        exact hne (by rw [← h.1 hne, hl])
    exact ⟨fun h => absurd hm0 h, fun _ => ⟨i, c, ha, hi, rfl⟩⟩
  | false =>
    simp only [Bool.false_eq_true, if_false]
    apply key x hh rfl
    rcases h.list with h1 | h1
    · refine ⟨fun _ => h1, fun h0 => ?_⟩
      rw [h1, h0] at hl
      cases hl
    · exact h1

theorem sync_ix {g : Cfg} {p i : Nat} {es : List Ev} {x : Pol} {c : Content} {a : List Nat} {ok : Bool}
    (hd : g.decomp p = false) (h : PolIx g p es x) (hi : Ev.looked i (some c) ∈ es) (ha : g.applies p i = true) :
    PolIx g p es (sync g p x c a ok).1 ∧ (∀ d, x.digest = some d → (sync g p x c a ok).1.digest = some d) ∧
      (p ∈ (sync g p x c a ok).2 → p ∈ a ∨ (sync g p x c a ok).1.digest = some c.digest) := by
  unfold sync
  dsimp only
  split
  · exact ⟨h, fun _ h => h, fun h => .inl (List.mem_of_mem_erase h)⟩
  · split
    · exact ⟨h, fun _ h => h, fun h => .inl h⟩
    · rw [if_neg (by simp [hd])]
      split
      · exact ⟨h, fun _ h => h, fun h => .inl h⟩
      · next hn =>
        split
        · next hh =>
          refine ⟨⟨h.list, h.handle⟩, fun _ h => h, fun _ => .inr ?_⟩
          obtain ⟨_, _, c', _, h2, _⟩ := h.handle hh
          dsimp only
          rw [h2] at hn ⊢
          simp only [ne_eq, decide_not, Option.any_some, Bool.not_eq_eq_eq_not, Bool.not_true,
            decide_eq_false_iff_not, Decidable.not_not] at hn
          rw [hn]
        · next hh =>
          have ho := openStore_ix (c := c) (ok := ok) h (by simpa using hh) hi ha
          split
          · next h2 => exact ⟨⟨ho.1.list, ho.1.handle⟩, ho.2.1, fun _ => .inr (ho.2.2 h2)⟩
          · exact ⟨ho.1, ho.2.1, fun h => .inl h⟩

theorem polIx_mono {g : Cfg} {p : Nat} {es : List Ev} {e : Ev} {x : Pol} (h : PolIx g p es x) :
    PolIx g p (es ++ [e]) x :=
  ⟨h.list.imp_right metricsOf_mono, fun hh => by
    obtain ⟨h1, i, c, h2, h3⟩ := h.handle hh
    exact ⟨metricsOf_mono h1, i, c, List.mem_append_left _ h2, h3⟩⟩

/-- a policy with a set: the digests are equal -/
def Near (x : PSet) (p : Nat) : Prop := p ∈ x.att ∨ ∃ t u, x.job = .store t u ∧ p ∈ t

theorem near_back {g : Cfg} {s : State} {j p : Nat} {x y : PSet} {e : Ev} (h : SetTr g s j x e y)
    (h1 : ∀ ok, e ≠ .attachOne j ok) (h2 : ∀ q ok, e ≠ .scan q j ok) (hp : Near y p) : Near x p := by
  have hd : ∀ z : PSet, Near (drop z) p → Near z p := by
    intro z h
    rcases h with h | ⟨t, u, h, ht⟩
    · exact .inl (drop_subset z p h)
    · exact .inr ⟨t, u, by simpa using h, ht⟩
  cases h with
  | add => rcases hp with h | ⟨_, _, h, _⟩ <;> cases h
  | req fresh ok =>
    simp only [request] at hp
    split at hp <;> exact hp
  | att _ _ ok => exact absurd rfl (h1 ok)
  | scan q ok => exact absurd rfl (h2 q ok)
  | lookFail => have := hd _ hp; exact this
  | lookOk => rcases hp with h | ⟨_, _, h, _⟩
              · exact .inl h
              · cases h
  | attEnd =>
    rcases hd _ hp with h | ⟨_, _, h, _⟩
    · exact .inl h
    · cases h
  | updErr => have := hd _ hp; exact this
  | updOld => have := hd _ hp; exact this
  | updNew =>
    rcases hp with h | ⟨_, _, h, h'⟩
    · exact .inl h
    · cases h; exact .inl h'
  | storeOne q ps u hj =>
    rcases hp with h | ⟨_, _, h, h'⟩
    · exact .inl h
    · cases h; exact .inr ⟨_, _, hj, List.mem_cons_of_mem _ h'⟩
  | storeMore => rcases hp with h | ⟨_, _, h, _⟩
                 · exact .inl h
                 · cases h
  | storeEnd =>
    rcases hd _ hp with h | ⟨_, _, h, _⟩
    · exact .inl h
    · cases h
  | reset =>
    have := hd _ hp
    exact hd { x with inTree := false } this
  | _ => exact hp

structure Ix (g : Cfg) (es : List Ev) (s : State) : Prop where
  pol : ∀ p, g.decomp p = false → PolIx g p es (s.pols p)
  near : ∀ p i, g.decomp p = false → Near (s.sets i) p →
    ∃ c, (s.sets i).content = some c ∧ (s.pols p).digest = some c.digest
  log : ∀ r ∈ s.log, ∀ ks, r.arr = some ks →
    ∃ c l, (s.sets r.set).content = some c ∧ MetricsOf g r.pol es l ∧ ks.map (c.names[·]?) = l.map some

theorem indexed (g : Cfg) : ∀ es s, Reach g es s → (∀ e ∈ es, isGroup e = false) → DigestsTell es → Ix g es s := by
  apply reach_induction
  · intro _ _
    exact ⟨fun p _ => ⟨.inl rfl, fun h => by cases h⟩, fun p i _ h => (by rcases h with h | ⟨_, _, h, _⟩ <;> cases h),
      fun r h => by cases h⟩
  · intro es e s s' hR ih hs hg hD
    have hg' := fun e h => hg e (List.mem_append_left _ h)
    have hD' : DigestsTell es := fun i j c d h1 h2 => hD i j c d (List.mem_append_left _ h1) (List.mem_append_left _ h2)
    obtain ⟨hP, hN, hL⟩ := ih hg' hD'
    have hG := all_good g es s hR hg'
    have hU := unused g es s hR hg'
    have hC := content_from g es s hR hg'
    have hS := fun j => step_sets g s s' e (hg e (by simp)) hs j
    have hct : ∀ j c, (s.sets j).content = some c → (s'.sets j).content = some c := by
      intro j c h
      rcases content_step (hS j) with h1 | ⟨_, _, h1, _⟩ | ⟨rfl, _⟩
      · rw [h1]; exact h
      · rw [h] at h1; cases h1
      · simp only [step] at hs
        split at hs
        · cases hs
        · next hj => rw [hU j hj] at h; cases h
    -- the policies
    have hpol : ∀ p, g.decomp p = false → PolIx g p es (s'.pols p) ∧
        ∀ d, (s.pols p).digest = some d → (s'.pols p).digest = some d := by
      intro p hd
      have ht := step_pols g s s' e hs p
      generalize s'.pols p = y at ht
      have h0 := hP p hd
      cases ht with
      | same _ _ h =>
        obtain ⟨_, _, h1, h2, h3, h4⟩ := h
        refine ⟨⟨by rw [h3]; exact h0.list, ?_⟩, fun d h => by rw [h2]; exact h⟩
        rw [h1, h2, h3, h4]
        exact h0.handle
      | start => exact ⟨⟨h0.list, h0.handle⟩, fun _ h => h⟩
      | stop => exact ⟨⟨h0.list, fun h => by cases h⟩, fun _ h => h⟩
      | att i ok ps c hj ha hc => have := sync_ix (a := (s.sets i).att) (ok := ok) hd h0 (hC i c hc) ha; exact ⟨this.1, this.2.1⟩
      | scan i ok c hj ha hc => have := sync_ix (a := (s.sets i).att) (ok := ok) hd h0 (hC i c hc) ha; exact ⟨this.1, this.2.1⟩
      | selfStop => exact ⟨⟨h0.list, h0.handle⟩, fun _ h => h⟩
    refine ⟨fun p hd => polIx_mono (hpol p hd).1, ?_, ?_⟩
    · intro p j hd hn
      have old : Near (s.sets j) p → ∃ c, (s'.sets j).content = some c ∧ (s'.pols p).digest = some c.digest := by
        intro h
        obtain ⟨c, h1, h2⟩ := hN p j hd h
        exact ⟨c, hct j c h1, (hpol p hd).2 _ h2⟩
      by_cases hsc : ∃ q ok, e = .scan q j ok
      · obtain ⟨q, ok, rfl⟩ := hsc
        obtain ⟨hi, htd, hso, hpo, hcase⟩ := scan_step hs
        rcases hcase with ⟨h1, _, _⟩ | ⟨_, hj, ha, c, hc, h5, h6⟩
        · rw [h1] at hn; exact old hn
        · have hn' : p ∈ (sync g q (s.pols q) c (s.sets j).att ok).2 := by
            rw [h5] at hn
            rcases hn with h | ⟨_, _, h, _⟩
            · exact h
            · dsimp only at h
              rw [hj] at h; cases h
          rcases sync_mem g q p _ c _ ok (hG j).nodup hn' with ⟨m1, _⟩ | ⟨rfl, _, m3⟩
          · exact old (.inl m1)
          · have := (sync_ix (a := (s.sets j).att) (ok := ok) hd (hP p hd) (hC j c hc) ha).2.2 hn'
            rcases this with h | h
            · exact absurd h m3
            · exact ⟨c, hct j c hc, by rw [h6]; exact h⟩
      · by_cases hat : ∃ ok, e = .attachOne j ok
        · obtain ⟨ok, rfl⟩ := hat
          obtain ⟨q, ps, hj, htd, hso, hpo, hcase⟩ := attach_step hs
          rcases hcase with ⟨h1, _, _⟩ | ⟨ha, c, hc, h5, h6⟩
          · rw [h1] at hn
            rcases hn with h | ⟨_, _, h, _⟩
            · exact old (.inl h)
            · cases h
          · have hn' : p ∈ (sync g q (s.pols q) c (s.sets j).att ok).2 := by
              rw [h5] at hn
              rcases hn with h | ⟨_, _, h, _⟩
              · exact h
              · cases h
            rcases sync_mem g q p _ c _ ok (hG j).nodup hn' with ⟨m1, _⟩ | ⟨rfl, _, m3⟩
            · exact old (.inl m1)
            · have := (sync_ix (a := (s.sets j).att) (ok := ok) hd (hP p hd) (hC j c hc) ha).2.2 hn'
              rcases this with h | h
              · exact absurd h m3
              · exact ⟨c, hct j c hc, by rw [h6]; exact h⟩
        · exact old (near_back (hS j) (fun ok h => hat ⟨ok, h⟩) (fun q ok h => hsc ⟨q, ok, h⟩) hn)
    · intro r hr ks hk
      rw [step_log g s s' e hs] at hr
      rcases List.mem_append.mp hr with hr | hr
      · obtain ⟨c, l, h1, h2, h3⟩ := hL r hr ks hk
        exact ⟨c, l, hct _ c h1, metricsOf_mono h2, h3⟩
      · cases e with
        | storeOne i =>
          simp only [stores] at hr
          split at hr
          · next p ps u hj =>
            split at hr
            · cases hr
            · split at hr
              · split at hr
                · simp only [List.mem_singleton] at hr; subst hr; cases hk
                · cases hr
              · next hd =>
                split at hr
                · next hh =>
                  simp only [List.mem_singleton] at hr
                  subst hr
                  simp only [Option.some.injEq] at hk
                  subst hk
                  have hd : g.decomp p = false := by simpa using hd
                  obtain ⟨c, h1, h2⟩ := hN p i hd (.inr ⟨_, _, hj, by simp⟩)
                  obtain ⟨hm, k, c0, h3, h4, h5⟩ := (hP p hd).handle hh
                  rw [h2, Option.some.injEq] at h4
                  have hn := hD' i k c c0 (hC i c h1) h3 h4
                  refine ⟨c, (s.pols p).list, hct i c h1, metricsOf_mono hm, ?_⟩
                  rw [hn]
                  exact indexes_get h5
                · cases hr
          · cases hr
        | _ => cases hr

end Verif.Pipeline
