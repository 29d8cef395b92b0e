import Verif.ProcSamp.Mem

/-!
# C81: the sets of the samplers of `/proc` say what the files say

First `meminfo` and `vmstat`, whose metrics are the lines of the file as it was when the sampler was configured, by position.
-/

namespace Verif.ProcSamp

/-- the state after a good `config`: names, component id and room for the values -/
structure Ready (p : Plug) (labels : List Str) (comp : Nat) (s : MSet) : Prop where
  is : p.set = some s
  base : p.base = .live
  names : s.names = baseNames ++ labels
  size : s.vals.length = 3 + labels.length
  comp : s.vals[0]? = some comp
  job : s.vals[1]? = some 0
  app : s.vals[2]? = some 0

theorem newSet_ready {labels : List Str} {comp : Nat} {p : Plug} (hp : p = ⟨.live, some (newSet comp (baseNames ++ labels))⟩) :
    ∃ s, Ready p labels comp s ∧ (∀ i, 3 ≤ i → i < 3 + labels.length → s.vals[i]? = some 0) := by
  subst hp
  have hl : (baseNames ++ labels).length = labels.length + 3 := by simp [baseNames]
  refine ⟨_, ⟨rfl, rfl, rfl, ?_, rfl, ?_, ?_⟩, ?_⟩
  · simp [newSet, hl]
    try omega
  · simp [newSet, hl]
  · simp [newSet, hl]
  · intro i h1 h2
    obtain ⟨k, rfl⟩ : ∃ k, i = k + 1 := ⟨i - 1, by omega⟩
    simp [newSet, hl, List.getElem?_replicate]
    omega

theorem base_nodup : baseNames.Nodup := by decide

theorem all_nodup {labels : List Str} (h1 : labels.Nodup) (h2 : ∀ n ∈ labels, ¬ OfBase n) : (baseNames ++ labels).Nodup := by
  rw [List.nodup_append]
  refine ⟨base_nodup, h1, ?_⟩
  intro a ha b hb e
  subst e
  exact h2 a hb (ofBase_iff.2 ha)

theorem after_append {σ : Type} {smp : σ → Str → Out (Int × σ)} : ∀ {p : σ} {fs : List Str} {f : Str}, after smp p (fs ++ [f]) =
    match after smp p fs with
    | .error x => .error x
    | .ok q => match smp q f with | .error x => .error x | .ok (_, r) => .ok r
  | p, [], f => by
    simp only [List.nil_append, after]
    cases smp p f <;> rfl
  | p, g :: fs, f => by
    simp only [List.cons_append, after]
    cases smp p g with
    | error x => rfl
    | ok r => exact after_append

theorem ready_sample {p : Plug} {labels : List Str} {comp : Nat} {s : MSet} (h : Ready p labels comp s) {vs : List Nat}
    (hv : vs.length = labels.length) :
    Ready { p with set := some { s with vals := over s.vals 3 vs, consistent := true } } labels comp { s with vals := over s.vals 3 vs, consistent := true } := by
  have hs := h.size
  exact ⟨rfl, h.base, h.names, by simp [over_length (show 3 + vs.length ≤ s.vals.length by omega), hs],
    by simpa [over_before (show 3 ≤ s.vals.length by omega) (show 0 < 3 by omega)] using h.comp,
    by simpa [over_before (show 3 ≤ s.vals.length by omega) (show 1 < 3 by omega)] using h.job,
    by simpa [over_before (show 3 ≤ s.vals.length by omega) (show 2 < 3 by omega)] using h.app⟩

theorem mem_step {p : Plug} {labels : List Str} {comp : Nat} {s : MSet} (h : Ready p labels comp s) {f : Str} {rows : List (Str × Nat)}
    {clean : Prop} (hf : Upto (lines f) rows clean) (hr : rows.length ≤ labels.length) :
    memSample p f = .ok (0, { p with set := some { s with vals := over s.vals 3 (rows.map (·.2)), consistent := true } }) := by
  unfold memSample
  rw [h.is]
  simp only
  rw [show baseNames.length = 3 from rfl, memLoop_ok hf (by rw [h.size]; omega)]

theorem vm_step {p : Plug} {labels : List Str} {comp : Nat} {s : MSet} (h : Ready p labels comp s) {f : Str} {rows : List (Str × Nat)}
    (hf : Upto (lines f) rows True) (hr : rows.length ≤ labels.length) :
    vmSample p f = .ok (0, { p with set := some { s with vals := over s.vals 3 (rows.map (·.2)), consistent := true } }) := by
  unfold vmSample
  rw [h.is]
  simp only
  rw [show baseNames.length = 3 from rfl, vmLoop_ok hf (by rw [h.size]; omega)]

theorem holds_row {p : Plug} {labels : List Str} {comp : Nat} {s : MSet} (h : Ready p labels comp s) {rows : List (Str × Nat)} {k : Nat} {n : Str}
    {v : Nat} (hr : rows.length ≤ labels.length) (hn : labels[k]? = some n) (hv : (rows.map (·.2))[k]? = some v) (c : Bool) :
    Holds { s with vals := over s.vals 3 (rows.map (·.2)), consistent := c } n v := by
  refine ⟨3 + k, ?_, ?_⟩
  · simp only
    rw [h.names, List.getElem?_append_right (by simp [baseNames])]
    simpa [baseNames] using hn
  · simp only
    have hk : k < (rows.map (·.2)).length := by
      by_contra hc
      rw [List.getElem?_eq_none (by omega)] at hv
      cases hv
    rw [over_in (by rw [h.size]; simpa using hr) hk]
    exact hv

theorem component_name : "component_id".toList.map Char.toNat = [99, 111, 109, 112, 111, 110, 101, 110, 116, 95, 105, 100] := by decide

theorem holds_comp {p : Plug} {labels : List Str} {comp : Nat} {s : MSet} (h : Ready p labels comp s) :
    Holds s ("component_id".toList.map Char.toNat) comp := by
  refine ⟨0, ?_, h.comp⟩
  rw [h.names, component_name]
  rfl

theorem mem_config {p : Plug} {a : Args} {f : Str} {rows : List (Str × Nat)} {clean : Prop} (hp : p.set = none) (ha : Good a f)
    (hf : Upto (lines f) rows clean) (h1 : (rows.map fun r => strip r.1).Nodup) (h2 : ∀ r ∈ rows, ¬ OfBase (strip r.1)) :
    config memCreate p a = .ok (0, ⟨.live, some (newSet a.componentId (baseNames ++ rows.map fun r => strip r.1))⟩) := by
  obtain ⟨g1, g2, g3, g4⟩ := ha
  unfold config
  rw [hp]
  simp only [Option.isSome_none, Bool.false_eq_true, if_false, g1, g2, Bool.not_true, memCreate, g4]
  rw [memNames_ok hf (all_nodup h1 (by
    intro n hn
    obtain ⟨r, hr, rfl⟩ := List.mem_map.1 hn
    exact h2 r hr))]
  simp [g3]

theorem vm_config {p : Plug} {a : Args} {f : Str} {rows : List (Str × Nat)} (hp : p.set = none) (ha : Good a f)
    (hf : Upto (lines f) rows True) (h1 : (rows.map (·.1)).Nodup) (h2 : ∀ r ∈ rows, ¬ OfBase r.1) :
    config vmCreate p a = .ok (0, ⟨.live, some (newSet a.componentId (baseNames ++ rows.map (·.1)))⟩) := by
  obtain ⟨g1, g2, g3, g4⟩ := ha
  unfold config
  rw [hp]
  simp only [Option.isSome_none, Bool.false_eq_true, if_false, g1, g2, Bool.not_true, vmCreate, g4]
  rw [vmNames_ok hf (all_nodup h1 (by
    intro n hn
    obtain ⟨r, hr, rfl⟩ := List.mem_map.1 hn
    exact h2 r hr))]
  simp [g3]

theorem ready_after {smp : Plug → Str → Out (Int × Plug)} {labels : List Str} {comp : Nat} {names : List Str}
    (hlen : names.length = labels.length)
    (step : ∀ {p : Plug} {s : MSet}, Ready p labels comp s → ∀ {f : Str} {rows : List (Str × Nat)}, Says f rows → rows.map (·.1) = names →
      smp p f = .ok (0, { p with set := some { s with vals := over s.vals 3 (rows.map (·.2)), consistent := true } })) :
    ∀ {p : Plug} {s : MSet}, Ready p labels comp s → ∀ {fs : List Str}, (∀ f ∈ fs, ∃ rows, Says f rows ∧ rows.map (·.1) = names) →
      ∃ q t, after smp p fs = .ok q ∧ Ready q labels comp t := by
  intro p s h fs
  induction fs generalizing p s with
  | nil => intro _; exact ⟨p, s, rfl, h⟩
  | cons f fs ih =>
    intro hf
    obtain ⟨rows, h1, h2⟩ := hf f (by simp)
    have hl : (rows.map (·.2)).length = labels.length := by
      rw [← hlen, ← h2]; simp
    obtain ⟨q, t, h3, h4⟩ := ih (ready_sample h hl) fun g hg => hf g (by simp [hg])
    refine ⟨q, t, ?_, h4⟩
    rw [after, step h h1 h2]
    exact h3

/-- **C81.**  meminfo: whatever was configured from a file of rows with different labels, after any number of samples whose files have the same
names in the same order, each label has the number that the last file has after its name; the set says that it is consistent, its names are
different, and it keeps its component id. -/
theorem mem_faithful {p : Plug} {a : Args} {f0 : Str} {rows0 : List (Str × Nat)} (hp : p.set = none) (ha : Good a f0) (h0 : Says f0 rows0)
    {labels : List Str} (hl : List.Forall₂ (fun r n => Label r.1 n) rows0 labels) (h1 : labels.Nodup) (h2 : ∀ n ∈ labels, ¬ OfBase n) :
    ∃ q, config memCreate p a = .ok (0, q) ∧
      ∀ fs : List Str, (∀ f ∈ fs, ∃ rows, Says f rows ∧ rows.map (·.1) = rows0.map (·.1)) →
        ∃ r s, after memSample q fs = .ok r ∧ r.set = some s ∧ s.names.Nodup ∧ s.names.length = s.vals.length ∧
          Holds s ("component_id".toList.map Char.toNat) a.componentId ∧
          ∀ f rows, fs.getLast? = some f → Says f rows → rows.map (·.1) = rows0.map (·.1) →
            s.consistent = true ∧ ∀ w v n, (w, v) ∈ rows → Label w n → Holds s n v := by
  have hl' : labels = rows0.map fun r => strip r.1 := by
    clear h1 h2 h0
    induction hl with
    | nil => rfl
    | cons h _ ih => rw [List.map_cons, ← ih, ← label_strip.1 h]
  subst hl'
  refine ⟨_, mem_config hp ha (upto_says h0) h1 (fun r hr => h2 _ (List.mem_map.2 ⟨r, hr, rfl⟩)), ?_⟩
  intro fs hfs
  obtain ⟨s0, r0, -⟩ := newSet_ready (labels := rows0.map fun r => strip r.1) (comp := a.componentId) rfl
  have step : ∀ {p : Plug} {s : MSet}, Ready p (rows0.map fun r => strip r.1) a.componentId s → ∀ {f : Str} {rows : List (Str × Nat)},
      Says f rows → rows.map (·.1) = rows0.map (·.1) →
      memSample p f = .ok (0, { p with set := some { s with vals := over s.vals 3 (rows.map (·.2)), consistent := true } }) := by
    intro p s h f rows hf hr
    refine mem_step h (upto_says hf) ?_
    have := congrArg List.length hr
    simp at this ⊢
    omega
  rcases List.eq_nil_or_concat fs with rfl | ⟨gs, g, rfl⟩
  · refine ⟨_, s0, rfl, r0.is, ?_, ?_, holds_comp r0, ?_⟩
    · rw [r0.names]; exact all_nodup h1 h2
    · rw [r0.names, r0.size]; simp [baseNames]; omega
    · intro f rows h; simp at h
  · obtain ⟨q, t, e, ht⟩ := ready_after (smp := memSample) (names := rows0.map (·.1)) (by simp) step r0
      (fs := gs) (fun f hf => hfs f (by simp [hf]))
    obtain ⟨rows, h3, h4⟩ := hfs g (by simp)
    have hlen : rows.length = rows0.length := by simpa using congrArg List.length h4
    have ht' := ready_sample (vs := rows.map (·.2)) ht (by simp [hlen])
    refine ⟨_, _, ?_, ht'.is, ?_, ?_, holds_comp ht', ?_⟩
    · rw [List.concat_eq_append, after_append, e]
      simp only
      rw [step ht h3 h4]
    · rw [ht'.names]; exact all_nodup h1 h2
    · rw [ht'.names, ht'.size]; simp [baseNames]; omega
    · intro f rows' hlast hs hn
      simp at hlast
      subst hlast
      have : rows' = rows := by
        have := (says_lines hs).symm.trans (says_lines h3)
        exact List.map_injective_iff.2 (fun _ _ h => Option.some.inj h) this
      subst this
      refine ⟨rfl, ?_⟩
      intro w v n hm hn'
      obtain ⟨k, hk⟩ := List.mem_iff_getElem?.1 hm
      refine holds_row ht (k := k) (by simp [hlen]) ?_ (by simp [hk]) true
      have : (rows'.map (·.1))[k]? = some w := by simp [hk]
      rw [h4] at this
      simp only [List.getElem?_map, Option.map_eq_some_iff] at this ⊢
      obtain ⟨r, hr, e⟩ := this
      exact ⟨r, hr, by rw [e, label_strip.1 hn']⟩

/-- **C81.**  The same for vmstat, whose names are as the file has them; each sample returns 0. -/
theorem vm_faithful {p : Plug} {a : Args} {f0 : Str} {rows0 : List (Str × Nat)} (hp : p.set = none) (ha : Good a f0) (h0 : Says f0 rows0)
    (h1 : (rows0.map (·.1)).Nodup) (h2 : ∀ r ∈ rows0, ¬ OfBase r.1) :
    ∃ q, config vmCreate p a = .ok (0, q) ∧
      ∀ fs : List Str, (∀ f ∈ fs, ∃ rows, Says f rows ∧ rows.map (·.1) = rows0.map (·.1)) →
        ∃ r s, after vmSample q fs = .ok r ∧ r.set = some s ∧ s.names.Nodup ∧ s.names.length = s.vals.length ∧
          Holds s ("component_id".toList.map Char.toNat) a.componentId ∧
          ∀ f rows, fs.getLast? = some f → Says f rows → rows.map (·.1) = rows0.map (·.1) →
            s.consistent = true ∧ ∀ n v, (n, v) ∈ rows → Holds s n v := by
  refine ⟨_, vm_config hp ha (upto_says h0) h1 h2, ?_⟩
  intro fs hfs
  obtain ⟨s0, r0, -⟩ := newSet_ready (labels := rows0.map (·.1)) (comp := a.componentId) rfl
  have h2' : ∀ n ∈ rows0.map (·.1), ¬ OfBase n := by
    intro n hn
    obtain ⟨r, hr, rfl⟩ := List.mem_map.1 hn
    exact h2 r hr
  have step : ∀ {p : Plug} {s : MSet}, Ready p (rows0.map (·.1)) a.componentId s → ∀ {f : Str} {rows : List (Str × Nat)},
      Says f rows → rows.map (·.1) = rows0.map (·.1) →
      vmSample p f = .ok (0, { p with set := some { s with vals := over s.vals 3 (rows.map (·.2)), consistent := true } }) := by
    intro p s h f rows hf hr
    refine vm_step h (upto_says hf) ?_
    have := congrArg List.length hr
    simp at this ⊢
    omega
  rcases List.eq_nil_or_concat fs with rfl | ⟨gs, g, rfl⟩
  · refine ⟨_, s0, rfl, r0.is, ?_, ?_, holds_comp r0, ?_⟩
    · rw [r0.names]; exact all_nodup h1 h2'
    · rw [r0.names, r0.size]; simp [baseNames]; omega
    · intro f rows h; simp at h
  · obtain ⟨q, t, e, ht⟩ := ready_after (smp := vmSample) (names := rows0.map (·.1)) (by simp) step r0
      (fs := gs) (fun f hf => hfs f (by simp [hf]))
    obtain ⟨rows, h3, h4⟩ := hfs g (by simp)
    have hlen : rows.length = rows0.length := by simpa using congrArg List.length h4
    have ht' := ready_sample (vs := rows.map (·.2)) ht (by simp [hlen])
    refine ⟨_, _, ?_, ht'.is, ?_, ?_, holds_comp ht', ?_⟩
    · rw [List.concat_eq_append, after_append, e]
      simp only
      rw [step ht h3 h4]
    · rw [ht'.names]; exact all_nodup h1 h2'
    · rw [ht'.names, ht'.size]; simp [baseNames]; omega
    · intro f rows' hlast hs hn
      simp at hlast
      subst hlast
      have : rows' = rows := by
        have := (says_lines hs).symm.trans (says_lines h3)
        exact List.map_injective_iff.2 (fun _ _ h => Option.some.inj h) this
      subst this
      refine ⟨rfl, ?_⟩
      intro w v hm
      obtain ⟨k, hk⟩ := List.mem_iff_getElem?.1 hm
      refine holds_row ht (k := k) (by simp [hlen]) ?_ (by simp [hk]) true
      have : (rows'.map (·.1))[k]? = some w := by simp [hk]
      rwa [h4] at this

end Verif.ProcSamp
