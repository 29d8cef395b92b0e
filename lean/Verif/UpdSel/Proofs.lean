import Verif.UpdSel.Spec

/-! # Proofs: passes over the sets and the invariant of the tasks -/

namespace Verif.UpdSel

/-! ## Passes -/

theorem after_inst (x : PSet) : (after x).inst = x.inst := by
  unfold after; split <;> rfl

theorem after_schema (x : PSet) : (after x).schema = x.schema := by
  unfold after; split <;> rfl

theorem after_hint (x : PSet) : (after x).hint = x.hint := by
  unfold after; split <;> rfl

theorem after_after (x : PSet) : after (after x) = after x := by
  obtain ⟨i, s, h, st⟩ := x
  cases st with
  | ready b => cases b <;> rfl
  | _ => rfl

theorem emit_after (x : PSet) : emit (after x) = none := by
  obtain ⟨i, s, h, st⟩ := x
  cases st with
  | ready b => cases b <;> rfl
  | _ => rfl

theorem emit_iff (x : PSet) (k : Kind) : emit x = some k ↔ Needs x k := by
  obtain ⟨i, s, h, st⟩ := x
  unfold emit Needs
  cases st with
  | ready b => cases b <;> cases k <;> simp
  | _ => cases k <;> simp

def Blind (s : PSet → Bool) : Prop := ∀ x, s (after x) = s x

/-- All passes at once. -/
def passAll (u : Upd) (sel : PSet → Bool) (prds : List Prd) : List Prd :=
  prds.map fun p =>
    if p.name ∈ u.prd ∧ p.conn = true then { p with sets := p.sets.map fun x => if sel x then after x else x } else p

theorem passes_prds (u : Upd) : ∀ (ss : List (PSet → Bool)) (prds : List Prd), (∀ s ∈ ss, Blind s) →
    (passes u ss prds).1 = passAll u (fun x => ss.any fun s => s x) prds
  | [], prds, _ => by
    simp only [passes, passAll, List.any_nil, Bool.false_eq_true, if_false, List.map_id']
    conv => lhs; rw [← List.map_id prds]
    refine List.map_congr_left fun p _ => ?_
    simp
  | s :: ss, prds, h => by
    rw [passes, passes_prds u ss _ (fun t ht => h t (by simp [ht]))]
    unfold passAll passPrds
    rw [List.map_map]
    refine List.map_congr_left fun p _ => ?_
    by_cases hp : p.name ∈ u.prd ∧ p.conn = true
    · simp only [Function.comp, if_pos hp, List.map_map, Prd.mk.injEq, true_and]
      refine List.map_congr_left fun x _ => ?_
      simp only [Function.comp, List.any_cons]
      by_cases hs : s x = true
      · simp only [hs, if_true, Bool.true_or]
        split
        · exact after_after x
        · rfl
      · simp only [Bool.not_eq_true] at hs
        simp only [hs, Bool.false_eq_true, if_false, Bool.false_or]
    · simp only [Function.comp, if_neg hp]

theorem mem_passOut {u : Upd} {s : PSet → Bool} {prds : List Prd} {o : Out} :
    o ∈ passOut u s prds ↔ ∃ P ∈ prds, P.name ∈ u.prd ∧ P.conn = true ∧ ∃ x ∈ P.sets, s x = true ∧
      emit x = some o.kind ∧ o.prd = P.name ∧ o.inst = x.inst := by
  unfold passOut
  rw [List.mem_flatMap]
  constructor
  · rintro ⟨P, hP, ho⟩
    split at ho
    · rename_i hc
      obtain ⟨x, hx, he⟩ := List.mem_filterMap.1 ho
      split at he
      · rename_i hs
        obtain ⟨k, hk, rfl⟩ := Option.map_eq_some_iff.1 he
        exact ⟨P, hP, hc.1, hc.2, x, hx, hs, hk, rfl, rfl⟩
      · exact absurd he (by simp)
    · exact absurd ho (by simp)
  · rintro ⟨P, hP, h1, h2, x, hx, hs, hk, hp, hi⟩
    refine ⟨P, hP, ?_⟩
    rw [if_pos ⟨h1, h2⟩]
    refine List.mem_filterMap.2 ⟨x, hx, ?_⟩
    rw [if_pos hs, hk]
    obtain ⟨k, p, i⟩ := o
    simp_all

theorem mem_passPrds {u : Upd} {s : PSet → Bool} {prds : List Prd} {P' : Prd} :
    P' ∈ passPrds u s prds ↔ ∃ P ∈ prds, P' = if P.name ∈ u.prd ∧ P.conn = true then
      { P with sets := P.sets.map fun x => if s x then after x else x } else P := by
  unfold passPrds
  rw [List.mem_map]
  exact ⟨fun ⟨P, h, e⟩ => ⟨P, h, e.symm⟩, fun ⟨P, h, e⟩ => ⟨P, h, e.symm⟩⟩

/-- Names are used once. -/
def Uniq (prds : List Prd) : Prop :=
  (prds.map (·.name)).Nodup ∧ ∀ P ∈ prds, (P.sets.map (·.inst)).Nodup

theorem uniq_prd {prds : List Prd} (h : (prds.map (·.name)).Nodup) : ∀ {P Q : Prd}, P ∈ prds → Q ∈ prds → P.name = Q.name → P = Q := by
  induction prds with
  | nil => intro P Q hP; simp at hP
  | cons a l ih =>
    simp only [List.map_cons, List.nodup_cons, List.mem_map, not_exists, not_and] at h
    intro P Q hP hQ e
    rcases List.mem_cons.1 hP with e1 | hP' <;> rcases List.mem_cons.1 hQ with e2 | hQ'
    · rw [e1, e2]
    · subst e1; exact absurd e.symm (h.1 Q hQ')
    · subst e2; exact absurd e (h.1 P hP')
    · exact ih h.2 hP' hQ' e

theorem uniq_set {l : List PSet} (h : (l.map (·.inst)).Nodup) : ∀ {x y : PSet}, x ∈ l → y ∈ l → x.inst = y.inst → x = y := by
  induction l with
  | nil => intro P Q hP; simp at hP
  | cons a l ih =>
    simp only [List.map_cons, List.nodup_cons, List.mem_map, not_exists, not_and] at h
    intro P Q hP hQ e
    rcases List.mem_cons.1 hP with e1 | hP' <;> rcases List.mem_cons.1 hQ with e2 | hQ'
    · rw [e1, e2]
    · subst e1; exact absurd e.symm (h.1 Q hQ')
    · subst e2; exact absurd e (h.1 P hP')
    · exact ih h.2 hP' hQ' e

theorem sets_passed_insts (s : PSet → Bool) (l : List PSet) :
    (l.map fun x => if s x then after x else x).map (·.inst) = l.map (·.inst) := by
  rw [List.map_map]
  refine List.map_congr_left fun x _ => ?_
  simp only [Function.comp]
  split
  · exact after_inst x
  · rfl

theorem passPrds_uniq {u : Upd} {s : PSet → Bool} {prds : List Prd} (h : Uniq prds) : Uniq (passPrds u s prds) := by
  constructor
  · have : (passPrds u s prds).map (·.name) = prds.map (·.name) := by
      unfold passPrds
      rw [List.map_map]
      refine List.map_congr_left fun p _ => ?_
      simp only [Function.comp]
      split <;> rfl
    rw [this]; exact h.1
  · intro P' hP'
    obtain ⟨P, hP, rfl⟩ := mem_passPrds.1 hP'
    split
    · simp only [sets_passed_insts]; exact h.2 P hP
    · exact h.2 P hP

theorem mem_passes {u : Upd} : ∀ {ss : List (PSet → Bool)} {prds : List Prd} {o : Out}, (∀ s ∈ ss, Blind s) →
    (o ∈ (passes u ss prds).2.1 ↔ ∃ P ∈ prds, P.name ∈ u.prd ∧ P.conn = true ∧ ∃ x ∈ P.sets, (∃ s ∈ ss, s x = true) ∧
      emit x = some o.kind ∧ o.prd = P.name ∧ o.inst = x.inst)
  | [], prds, o, _ => by simp [passes]
  | s :: ss, prds, o, h => by
    rw [passes, List.mem_append, mem_passOut, mem_passes (fun t ht => h t (by simp [ht]))]
    constructor
    · rintro (⟨P, hP, h1, h2, x, hx, hs, hk⟩ | ⟨P', hP', h1, h2, x', hx', ⟨t, ht, hs⟩, hk, hp, hi⟩)
      · exact ⟨P, hP, h1, h2, x, hx, ⟨s, by simp, hs⟩, hk⟩
      · obtain ⟨P, hP, rfl⟩ := mem_passPrds.1 hP'
        by_cases hc : P.name ∈ u.prd ∧ P.conn = true
        · simp only [if_pos hc] at hx' hp h1 h2
          obtain ⟨x, hx, rfl⟩ := List.mem_map.1 hx'
          by_cases hsx : s x = true
          · rw [if_pos hsx, emit_after] at hk; exact absurd hk (by simp)
          · rw [if_neg hsx] at hk hs hi
            exact ⟨P, hP, hc.1, hc.2, x, hx, ⟨t, by simp [ht], hs⟩, hk, hp, hi⟩
        · simp only [if_neg hc] at h1 h2
          exact absurd ⟨h1, h2⟩ hc
    · rintro ⟨P, hP, h1, h2, x, hx, ⟨t, ht, hs⟩, hk, hp, hi⟩
      by_cases hsx : s x = true
      · exact .inl ⟨P, hP, h1, h2, x, hx, hsx, hk, hp, hi⟩
      · rcases List.mem_cons.1 ht with rfl | ht'
        · exact absurd hs hsx
        · refine .inr ⟨_, mem_passPrds.2 ⟨P, hP, rfl⟩, ?_⟩
          simp only [if_pos (And.intro h1 h2)]
          refine ⟨h1, h2, x, List.mem_map.2 ⟨x, hx, if_neg hsx⟩, ⟨t, ht', hs⟩, hk, hp, hi⟩

theorem passOut_nodup {u : Upd} {s : PSet → Bool} : ∀ {prds : List Prd}, Uniq prds → (passOut u s prds).Nodup
  | [], _ => by simp [passOut]
  | P :: l, h => by
    have hl : Uniq l := ⟨(List.nodup_cons.1 h.1).2, fun Q hQ => h.2 Q (by simp [hQ])⟩
    have e : passOut u s (P :: l) = (if P.name ∈ u.prd ∧ P.conn = true then
      P.sets.filterMap fun x => if s x then (emit x).map fun k => (⟨k, P.name, x.inst⟩ : Out) else none
      else []) ++ passOut u s l := rfl
    rw [e, List.nodup_append]
    refine ⟨?_, passOut_nodup hl, ?_⟩
    · split
      · have hn := h.2 P (by simp)
        unfold List.Nodup at hn ⊢
        rw [List.pairwise_map] at hn
        refine List.Pairwise.filterMap _ (fun x y hxy a ha b hb => ?_) hn
        intro hab
        apply hxy
        split at ha <;> split at hb <;> try contradiction
        obtain ⟨k, _, rfl⟩ := Option.map_eq_some_iff.1 ha
        obtain ⟨k', _, rfl⟩ := Option.map_eq_some_iff.1 hb
        exact (Out.mk.inj hab).2.2
      · simp
    · intro a ha b hb hab
      subst hab
      obtain ⟨Q, hQ, _, _, x, hx, _, _, hp, _⟩ := mem_passOut.1 hb
      split at ha
      · obtain ⟨y, _, hy⟩ := List.mem_filterMap.1 ha
        split at hy <;> try contradiction
        obtain ⟨k, _, rfl⟩ := Option.map_eq_some_iff.1 hy
        exact (List.nodup_cons.1 h.1).1 (List.mem_map.2 ⟨Q, hQ, hp.symm⟩)
      · simp at ha

theorem passes_nodup {u : Upd} : ∀ {ss : List (PSet → Bool)} {prds : List Prd}, (∀ s ∈ ss, Blind s) → Uniq prds →
    (passes u ss prds).2.1.Nodup
  | [], prds, _, _ => by simp [passes]
  | s :: ss, prds, h, hu => by
    have h' : ∀ t ∈ ss, Blind t := fun t ht => h t (by simp [ht])
    rw [passes]
    refine List.nodup_append.2 ⟨passOut_nodup hu, passes_nodup h' (passPrds_uniq hu), ?_⟩
    intro a ha b hb hab
    subst hab
    obtain ⟨P, hP, h1, h2, x, hx, hs, hk, hp, hi⟩ := mem_passOut.1 ha
    obtain ⟨Q', hQ', h3, h4, y', hy', _, hk', hp', hi'⟩ := (mem_passes h').1 hb
    obtain ⟨Q, hQ, rfl⟩ := mem_passPrds.1 hQ'
    have e : P.name = Q.name := by
      rw [← hp, hp']; split <;> rfl
    have e2 := uniq_prd hu.1 hP hQ e
    subst e2
    simp only [if_pos (And.intro h1 h2)] at hy'
    obtain ⟨y, hy, rfl⟩ := List.mem_map.1 hy'
    have ei : x.inst = y.inst := by
      rw [← hi, hi']; split
      · exact after_inst y
      · rfl
    have e3 := uniq_set (hu.2 P hP) hx hy ei
    subst e3
    rw [if_pos hs, emit_after] at hk'
    exact absurd hk' (by simp)

theorem sum_eq_zero' : ∀ {l : List Nat}, l.sum = 0 → ∀ a ∈ l, a = 0
  | [], _, a, h => by simp at h
  | b :: l, e, a, h => by
    simp only [List.sum_cons] at e
    rcases List.mem_cons.1 h with rfl | h'
    · omega
    · exact sum_eq_zero' (by omega) a h'

theorem passCount_zero {u : Upd} {s : PSet → Bool} {prds : List Prd} (h : passCount u s prds = 0) :
    ∀ P ∈ prds, P.name ∈ u.prd → P.conn = true → ∀ x ∈ P.sets, s x = false := by
  intro P hP h1 h2 x hx
  have := sum_eq_zero' h _ (List.mem_map.2 ⟨P, hP, rfl⟩)
  rw [if_pos ⟨h1, h2⟩, List.length_eq_zero_iff, List.filter_eq_nil_iff] at this
  simpa using this x hx

theorem passes_zero {u : Upd} : ∀ {ss : List (PSet → Bool)} {prds : List Prd}, (∀ s ∈ ss, Blind s) →
    (passes u ss prds).2.2 = 0 →
    ∀ P ∈ prds, P.name ∈ u.prd → P.conn = true → ∀ x ∈ P.sets, ∀ s ∈ ss, s x = false
  | [], _, _, _ => by intro P _ _ _ x _ s hs; simp at hs
  | s :: ss, prds, hb, h => by
    rw [passes] at h
    have h1 : passCount u s prds = 0 := by simp only at h; omega
    have h2 : (passes u ss (passPrds u s prds)).2.2 = 0 := by simp only at h; omega
    intro P hP a b x hx t ht
    have hs := passCount_zero h1 P hP a b x hx
    rcases List.mem_cons.1 ht with rfl | ht'
    · exact hs
    · refine passes_zero (fun t ht => hb t (by simp [ht])) h2 _ (mem_passPrds.2 ⟨P, hP, rfl⟩) ?_ ?_ x ?_ t ht'
      · rw [if_pos ⟨a, b⟩]; exact a
      · rw [if_pos ⟨a, b⟩]; exact b
      · rw [if_pos ⟨a, b⟩]; exact List.mem_map.2 ⟨x, hx, by simp [hs]⟩

/-- A set is selected: the count is not zero. -/
theorem passCount_pos {u : Upd} {s : PSet → Bool} {prds : List Prd} {P : Prd} (hP : P ∈ prds) (h1 : P.name ∈ u.prd)
    (h2 : P.conn = true) {x : PSet} (hx : x ∈ P.sets) (hs : s x = true) : passCount u s prds ≠ 0 := by
  intro h
  rw [passCount_zero h P hP h1 h2 x hx] at hs
  exact absurd hs (by simp)

theorem passes_pos {u : Upd} : ∀ {ss : List (PSet → Bool)} {prds : List Prd}, (∀ s ∈ ss, Blind s) →
    ∀ {P : Prd}, P ∈ prds → P.name ∈ u.prd → P.conn = true → ∀ {x}, x ∈ P.sets → (∃ s ∈ ss, s x = true) →
    (passes u ss prds).2.2 ≠ 0 := by
  intro ss prds hb P hP h1 h2 x hx ⟨s, hs, e⟩ h
  rw [passes_zero hb h P hP h1 h2 x hx s hs] at e
  exact absurd e (by simp)

/-! ## Selection -/

theorem inTask_blind (u : Upd) (h : Hint) (x : PSet) : inTask u h (after x) = inTask u h x := by
  unfold inTask; rw [after_hint]

theorem matchOne_blind (rx : Nat → Str → Bool) (m : Match) (x : PSet) : matchOne rx m (after x) = matchOne rx m x := by
  unfold matchOne; rw [after_schema, after_inst]

theorem sels_blind (rx : Nat → Str → Bool) (u : Upd) (h : Hint) : ∀ s ∈ sels rx u h, Blind s := by
  intro s hs x
  unfold sels at hs
  split at hs
  · rw [List.mem_singleton] at hs; subst hs; exact inTask_blind u h x
  · obtain ⟨m, _, rfl⟩ := List.mem_map.1 hs
    simp only [inTask_blind, matchOne_blind]

theorem matchAny_iff (rx : Nat → Str → Bool) (u : Upd) (x : PSet) : matchAny rx u x = true ↔ Fits rx u.matches_ x := by
  unfold matchAny Fits
  rw [Bool.or_eq_true, List.isEmpty_iff, List.any_eq_true]
  refine or_congr_right (exists_congr fun m => and_congr_right fun _ => ?_)
  unfold matchOne
  split <;> rfl

theorem sels_any (rx : Nat → Str → Bool) (u : Upd) (h : Hint) (x : PSet) :
    (∃ s ∈ sels rx u h, s x = true) ↔ inTask u h x = true ∧ Fits rx u.matches_ x := by
  unfold sels
  split
  · rename_i he
    rw [List.isEmpty_iff] at he
    simp [Fits, he]
  · rename_i he
    rw [List.isEmpty_iff] at he
    have hm : ∀ m : Match, matchOne rx m x = rx m.rx (if m.bySchema = true then x.schema else x.inst) := by
      intro m; unfold matchOne; split <;> rfl
    constructor
    · rintro ⟨s, hs, e⟩
      obtain ⟨m, a, rfl⟩ := List.mem_map.1 hs
      rw [Bool.and_eq_true, hm] at e
      exact ⟨e.1, .inr ⟨m, a, e.2⟩⟩
    · rintro ⟨b, c⟩
      rcases c with c | ⟨m, a, c⟩
      · exact absurd c he
      · exact ⟨_, List.mem_map.2 ⟨m, a, rfl⟩, by rw [Bool.and_eq_true, hm]; exact ⟨b, c⟩⟩

theorem toInt_small {x : Int} (h1 : -2147483648 ≤ x) (h2 : x < 2147483648) : toInt x = x := by
  unfold toInt; omega

theorem cmp_small {a b : Hint} (ha : Small a) (hb : Small b) : cmp a b = 0 ↔ a = b := by
  obtain ⟨ai, ao⟩ := a
  obtain ⟨bi, bo⟩ := b
  obtain ⟨a1, a2, a3⟩ := ha
  obtain ⟨b1, b2, b3⟩ := hb
  unfold offNone at a3 b3
  simp only at *
  simp only [cmp, offNone, Hint.mk.injEq]
  rw [toInt_small (x := ai - bi) (by omega) (by omega)]
  by_cases hi : ai - bi = 0
  · have : ai = bi := by omega
    simp only [ne_eq, this, true_and, Int.sub_self, not_true_eq_false, if_false]
    by_cases ho : ao = bo
    · simp [ho]
    · simp only [ho, if_false, iff_false]
      by_cases hA : ao = -9223372036854775808
      · simp [hA]
      · simp only [hA, if_false]
        by_cases hB : bo = -9223372036854775808
        · simp [hB]
        · simp only [hB, if_false]
          rw [toInt_small (by omega) (by omega)]
          omega
  · simp only [hi, ne_eq, not_false_eq_true, if_true, false_iff, not_and]
    intro h; omega

end Verif.UpdSel
