import Verif.Pipeline.Store

namespace Verif.Pipeline

/-! ## Which policies are with which sets -/

theorem scan_step {g : Cfg} {s s' : State} {p i : Nat} {ok : Bool} (h : step g s (.scan p i ok) = .ok s') :
    i ∈ s.todo p ∧ (s'.todo = fun q => if q = p then (s.todo p).filter (· ≠ i) else s.todo q) ∧
    (∀ j, j ≠ i → s'.sets j = s.sets j) ∧ (∀ q, q ≠ p → s'.pols q = s.pols q) ∧
    ((s'.sets i = s.sets i ∧ s'.pols p = s.pols p ∧
        ((s.sets i).inTree = false ∨ ((s.sets i).st = .start ∨ (s.sets i).st = .lookup) ∨ g.applies p i = false)) ∨
      ((s.sets i).inTree = true ∧ (s.sets i).job = .idle ∧ g.applies p i = true ∧ ∃ c, (s.sets i).content = some c ∧
        s'.sets i = { s.sets i with att := (sync g p (s.pols p) c (s.sets i).att ok).2 } ∧
        s'.pols p = (sync g p (s.pols p) c (s.sets i).att ok).1)) := by
  simp only [step] at h
  split at h
  · cases h
  · next hi =>
    refine ⟨Decidable.not_not.mp hi, ?_⟩
    split at h
    · next ht => cases h; exact ⟨rfl, fun _ _ => rfl, fun _ _ => rfl, .inl ⟨rfl, rfl, .inl ht⟩⟩
    · next ht =>
      split at h
      · cases h
      · next hj =>
        split at h
        · next hs => cases h; exact ⟨rfl, fun _ _ => rfl, fun _ _ => rfl, .inl ⟨rfl, rfl, .inr (.inl hs)⟩⟩
        · next hs =>
          rcases syncOne_ok h with ⟨ha, rfl⟩ | ⟨ha, c, hc, rfl⟩
          · exact ⟨rfl, fun _ _ => rfl, fun _ _ => rfl, .inl ⟨rfl, rfl, .inr (.inr ha)⟩⟩
          · refine ⟨rfl, fun j hj => by simp [setSet, setPol, hj], fun q hq => by simp [setSet, setPol, hq], .inr
              ⟨by simpa using ht, Decidable.not_not.mp hj, ha, c, hc, by simp [setSet, setPol], by simp [setPol]⟩⟩

theorem attach_step {g : Cfg} {s s' : State} {i : Nat} {ok : Bool} (h : step g s (.attachOne i ok) = .ok s') :
    ∃ p ps, (s.sets i).job = .attach (p :: ps) ∧ s'.todo = s.todo ∧
    (∀ j, j ≠ i → s'.sets j = s.sets j) ∧ (∀ q, q ≠ p → s'.pols q = s.pols q) ∧
    ((s'.sets i = { s.sets i with job := .attach ps } ∧ s'.pols p = s.pols p ∧ g.applies p i = false) ∨
      (g.applies p i = true ∧ ∃ c, (s.sets i).content = some c ∧
        s'.sets i = { s.sets i with job := .attach ps, att := (sync g p (s.pols p) c (s.sets i).att ok).2 } ∧
        s'.pols p = (sync g p (s.pols p) c (s.sets i).att ok).1)) := by
  simp only [step] at h
  split at h
  · next p ps hj =>
    refine ⟨p, ps, hj, ?_⟩
    rcases syncOne_ok h with ⟨ha, rfl⟩ | ⟨ha, c, hc, rfl⟩
    · exact ⟨rfl, fun j hj => by simp [setSet, hj], fun _ _ => rfl, .inl ⟨by simp [setSet], rfl, ha⟩⟩
    · simp only [setSet, if_true] at hc
      exact ⟨rfl, fun j hj => by simp [setSet, setPol, hj], fun q hq => by simp [setSet, setPol, hq], .inr
        ⟨ha, c, hc, by simp [setSet, setPol], by simp [setSet, setPol]⟩⟩
  · cases h

/-- the events that change what policies do -/
def policyEv : Ev → Bool
  | .start _ | .stop _ | .scan _ _ _ | .attachOne _ _ | .storeOne _ => true
  | _ => false

theorem step_todo (g : Cfg) (s s' : State) (e : Ev) (h : step g s e = .ok s') (he : ∀ p i ok, e ≠ .scan p i ok) (q : Nat) :
    (s'.todo q = s.todo q ∧ (e = .start q → (s.pols q).running = true) ∧ (e = .stop q → (s.pols q).running = false)) ∨
    ((e = .start q ∨ e = .stop q) ∧ s'.todo q = s.used.filter (fun i => (s.sets i).inTree)) := by
  cases e with
  | scan p i ok => exact absurd rfl (he p i ok)
  | start p =>
    simp only [step] at h
    split at h
    · next hr => cases h; exact .inl ⟨rfl, fun h => by cases h; exact hr, fun h => by cases h⟩
    · split at h
      · cases h
      · cases h
        by_cases hq : q = p
        · subst hq; exact .inr ⟨.inl rfl, by simp⟩
        · exact .inl ⟨by simp [hq], fun h => by cases h; exact absurd rfl hq, fun h => by cases h⟩
  | stop p =>
    simp only [step] at h
    split at h
    · next hr => cases h; exact .inl ⟨rfl, (fun h => by cases h), fun h => by cases h; exact hr⟩
    · split at h
      · cases h
      · cases h
        by_cases hq : q = p
        · subst hq; exact .inr ⟨.inr rfl, by simp⟩
        · exact .inl ⟨by simp [hq], (fun h => by cases h), fun h => by cases h; exact absurd rfl hq⟩
  | attachOne i ok =>
    obtain ⟨p, ps, _, ht, _⟩ := attach_step h
    exact .inl ⟨by rw [ht], (fun h => by cases h), fun h => by cases h⟩
  | reset i =>
    refine .inl ⟨?_, (fun h => by cases h), fun h => by cases h⟩
    simp only [step] at h
    split at h
    · cases h
    · split at h
      · next s1 h1 =>
        split at h
        · cases h
        · rw [(put_ok h).2.2.1, (put_ok h1).2.2.1]
      · next hr => exact (hr _ h).elim
  | _ =>
    refine .inl ⟨?_, (fun h => by cases h), fun h => by cases h⟩
    simp only [step] at h
    repeat' split at h
    all_goals first
      | (cases h; done)
      | (cases h; rfl)
      | rw [(put_ok h).2.2.1]

theorem drop_subset (x : PSet) (p : Nat) (h : p ∈ (drop x).att) : p ∈ x.att := by
  rcases drop_att x with h1 | ⟨h1, _⟩
  · rwa [h1] at h
  · rw [h1] at h; cases h

/-- other events give a set no policies -/
theorem att_back {g : Cfg} {s : State} {j p : Nat} {x y : PSet} {e : Ev} (h : SetTr g s j x e y)
    (h1 : ∀ ok, e ≠ .attachOne j ok) (h2 : ∀ q ok, e ≠ .scan q j ok) (hp : p ∈ y.att) (ht : y.inTree = true) :
    p ∈ x.att ∧ x.inTree = true := by
  have hd : ∀ z : PSet, p ∈ (drop z).att → (drop z).inTree = true → z.att = x.att → z.inTree = x.inTree →
      p ∈ x.att ∧ x.inTree = true := by
    intro z h h' ha ht'
    rw [drop_inTree, ht'] at h'
    exact ⟨by rw [← ha]; exact drop_subset z p h, h'⟩
  cases h with
  | add => cases hp
  | req fresh ok => simp only [request] at hp ht; split at hp <;> simp_all
  | att _ _ ok => exact absurd rfl (h1 ok)
  | scan q ok => exact absurd rfl (h2 q ok)
  | lookFail => exact hd _ hp ht rfl rfl
  | attEnd => exact hd _ hp ht rfl rfl
  | updErr => exact hd _ hp ht rfl rfl
  | updOld => exact hd _ hp ht rfl rfl
  | storeEnd => exact hd _ hp ht rfl rfl
  | reset => simp at ht
  | _ => exact ⟨hp, ht⟩

theorem sync_stopped (g : Cfg) (p : Nat) (x : Pol) (c : Content) (a : List Nat) (ok : Bool) (h : x.running = false) :
    sync g p x c a ok = (x, a.erase p) := by
  unfold sync; rw [if_pos h]

theorem openStore_true (x : Pol) (c : Content) (ok : Bool) (h : (openStore x c ok).2 = true) :
    (openStore x c ok).1.handle = true := by
  revert h
  unfold openStore
  dsimp only
  repeat' split
  all_goals simp

theorem sync_new (g : Cfg) (p : Nat) (x : Pol) (c : Content) (a : List Nat) (ok : Bool) (h : x.running = true)
    (hn : p ∉ a) (hp : p ∈ (sync g p x c a ok).2) : can g p (sync g p x c a ok).1 = true := by
  revert hp
  unfold sync can
  dsimp only
  rw [if_neg (by simp [h]), if_neg hn]
  by_cases hd : g.decomp p = true
  · rw [if_pos hd, if_pos hd]
    split
    · simp
    · intro h; exact absurd h hn
  · rw [if_neg hd, if_neg hd]
    split
    · intro h; exact absurd h hn
    · split
      · intro _; assumption
      · split
        · next ho => intro _; exact openStore_true x c ok ho
        · intro h; exact absurd h hn

/-- what `sync` of policy `p` does to any policy's presence -/
theorem sync_mem (g : Cfg) (p q : Nat) (x : Pol) (c : Content) (a : List Nat) (ok : Bool) (hn : a.Nodup)
    (h : q ∈ (sync g p x c a ok).2) :
    (q ∈ a ∧ (q = p → x.running = true)) ∨ (q = p ∧ x.running = true ∧ p ∉ a) := by
  cases hr : x.running with
  | false =>
    rw [sync_stopped g p x c a ok hr] at h
    left
    by_cases hq : q = p
    · subst hq
      exact absurd h (fun h => (hn.mem_erase_iff.mp h).1 rfl)
    · exact ⟨List.mem_of_mem_erase h, fun h => absurd h hq⟩
  | true =>
    rcases sync_att g p x c a ok with h' | h' | ⟨h1, h'⟩
    · rw [h'] at h; exact .inl ⟨h, fun _ => rfl⟩
    · rw [h'] at h; exact .inl ⟨List.mem_of_mem_erase h, fun _ => rfl⟩
    · rw [h'] at h
      rcases List.mem_cons.mp h with rfl | h
      · exact .inr ⟨rfl, rfl, h1⟩
      · exact .inl ⟨h, fun _ => rfl⟩

/-- the policies that are with sets in the tree -/
def Kept (g : Cfg) (s : State) : Prop :=
  ∀ p i, (s.sets i).inTree = true → p ∈ (s.sets i).att →
    g.applies p i = true ∧ ((s.pols p).running = true → can g p (s.pols p) = true) ∧
    ((s.pols p).running = false → i ∈ s.todo p)

theorem kept (g : Cfg) : ∀ es s, Reach g es s → (∀ e ∈ es, isGroup e = false) → Kept g s := by
  apply reach_induction
  · intro _ p i h; cases h
  · intro es e s s' hR ih hs hg
    have hg' := fun e h => hg e (List.mem_append_left _ h)
    have ih := ih hg'
    have hG := all_good g es s hR hg'
    have hU := unused g es s hR hg'
    intro q j ht hq
    have hused : ∀ j, (s.sets j).inTree = true → j ∈ s.used := by
      intro j h
      apply Classical.byContradiction
      intro hj
      rw [hU j hj] at h
      cases h
    by_cases he : (∃ p i ok, e = .scan p i ok)
    · obtain ⟨p, i, ok, rfl⟩ := he
      obtain ⟨hi, htd, hso, hpo, hcase⟩ := scan_step hs
      by_cases hji : j = i
      · subst hji
        rcases hcase with ⟨h1, h2, h3⟩ | ⟨h1, h2, h3, c, h4, h5, h6⟩
        · rw [h1] at ht hq
          obtain ⟨k1, k2, k3⟩ := ih q j ht hq
          have hpq : s'.pols q = s.pols q := by
            by_cases hqp : q = p
            · subst hqp; exact h2
            · exact hpo q hqp
          refine ⟨k1, by rw [hpq]; exact k2, ?_⟩
          rw [hpq]
          intro hr
          by_cases hqp : q = p
          · subst hqp
            exfalso
            rcases h3 with h3 | h3 | h3
            · rw [h3] at ht; cases ht
            · have hc : (s.sets j).content = none := by
                rcases h3 with h3 | h3
                · exact ((hG j).start ht h3).1
                · exact ((hG j).lookup ht h3).2
              rw [(hG j).att hc] at hq; cases hq
            · rw [h3] at k1; cases k1
          · rw [htd]
            simp only [hqp, if_false]
            exact k3 hr
        · rw [h5] at ht hq
          dsimp only at ht hq
          rcases sync_mem g p q _ c _ ok (hG j).nodup hq with ⟨m1, m2⟩ | ⟨rfl, m2, m3⟩
          · obtain ⟨k1, k2, k3⟩ := ih q j ht m1
            by_cases hqp : q = p
            · subst hqp
              have hr := m2 rfl
              rw [h6, sync_running]
              exact ⟨k1, fun _ => sync_can _ _ _ _ _ _ (k2 hr), fun h => by rw [hr] at h; cases h⟩
            · rw [hpo q hqp, htd]
              simp only [hqp, if_false]
              exact ⟨k1, k2, k3⟩
          · rw [h6, sync_running]
            exact ⟨h3, fun _ => sync_new g q _ c _ ok m2 m3 hq, fun h => by rw [m2] at h; cases h⟩
      · rw [hso j hji] at ht hq
        obtain ⟨k1, k2, k3⟩ := ih q j ht hq
        by_cases hqp : q = p
        · subst hqp
          have hmem : (s.pols q).running = false → j ∈ s'.todo q := by
            intro h
            rw [htd]
            simp only [if_true]
            exact List.mem_filter.mpr ⟨k3 h, by simpa using hji⟩
          rcases hcase with ⟨h1, h2, h3⟩ | ⟨h1, h2, h3, c, h4, h5, h6⟩
          · rw [h2]; exact ⟨k1, k2, hmem⟩
          · rw [h6, sync_running]
            exact ⟨k1, fun h => sync_can _ _ _ _ _ _ (k2 h), hmem⟩
        · rw [hpo q hqp, htd]
          simp only [hqp, if_false]
          exact ⟨k1, k2, k3⟩
    · have he' : ∀ p i ok, e ≠ .scan p i ok := fun p i ok h => he ⟨p, i, ok, h⟩
      by_cases ha : ∃ ok, e = .attachOne j ok
      · obtain ⟨ok, rfl⟩ := ha
        obtain ⟨p, ps, hj, htd, hso, hpo, hcase⟩ := attach_step hs
        rcases hcase with ⟨h1, h2, h3⟩ | ⟨h3, c, h4, h5, h6⟩
        · rw [h1] at ht hq
          obtain ⟨k1, k2, k3⟩ := ih q j ht hq
          have hpq : s'.pols q = s.pols q := by
            by_cases hqp : q = p
            · subst hqp; exact h2
            · exact hpo q hqp
          rw [hpq, htd]
          exact ⟨k1, k2, k3⟩
        · rw [h5] at ht hq
          dsimp only at ht hq
          rcases sync_mem g p q _ c _ ok (hG j).nodup hq with ⟨m1, m2⟩ | ⟨rfl, m2, m3⟩
          · obtain ⟨k1, k2, k3⟩ := ih q j ht m1
            rw [htd]
            by_cases hqp : q = p
            · subst hqp
              have hr := m2 rfl
              rw [h6, sync_running]
              exact ⟨k1, fun _ => sync_can _ _ _ _ _ _ (k2 hr), k3⟩
            · rw [hpo q hqp]
              exact ⟨k1, k2, k3⟩
          · rw [h6, sync_running]
            exact ⟨h3, fun _ => sync_new g q _ c _ ok m2 m3 hq, fun h => by rw [m2] at h; cases h⟩
      · obtain ⟨hq', ht'⟩ := att_back (step_sets g s s' e (hg e (by simp)) hs j) (fun ok h => ha ⟨ok, h⟩)
          (fun p ok => he' p j ok) hq ht
        obtain ⟨k1, k2, k3⟩ := ih q j ht' hq'
        refine ⟨k1, ?_⟩
        have hp := step_pols g s s' e hs q
        have htd := step_todo g s s' e hs he' q
        generalize s'.pols q = y at hp
        cases hp with
        | same _ _ h h1 h2 =>
          rcases htd with ⟨htd, _⟩ | ⟨_, htd⟩
          · rw [htd, h.1, can_same h]
            exact ⟨k2, k3⟩
          · rw [htd, h.1, can_same h]
            exact ⟨k2, fun _ => List.mem_filter.mpr ⟨hused j ht', ht'⟩⟩
        | start h hw =>
          have := k3 h
          rw [hw] at this
          cases this
        | stop h hw =>
          refine ⟨fun h => (by cases h), fun _ => ?_⟩
          rcases htd with ⟨_, _, htd⟩ | ⟨_, htd⟩
          · have := htd rfl
            rw [h] at this; cases this
          · rw [htd]
            exact List.mem_filter.mpr ⟨hused j ht', ht'⟩
        | att i ok ps c hj hap hc =>
          have htd : s'.todo q = s.todo q := by
            rcases htd with ⟨htd, _⟩ | ⟨h, _⟩
            · exact htd
            · rcases h with h | h <;> cases h
          rw [htd, sync_running]
          exact ⟨fun h => sync_can _ _ _ _ _ _ (k2 h), k3⟩
        | scan i ok c => exact absurd rfl (he' q i ok)
        | selfStop i ps u hj hr hh =>
          have := k2 hr
          rw [can, hh] at this
          cases this

end Verif.Pipeline
