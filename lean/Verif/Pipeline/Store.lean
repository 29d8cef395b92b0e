import Verif.Pipeline.Proofs

namespace Verif.Pipeline

/-! ## What is stored, and what was sampled -/

/-- the plugin of the policy can be called -/
def can (g : Cfg) (p : Nat) (x : Pol) : Bool := if g.decomp p then x.decomp else x.handle

/-- what is still to be stored for a policy -/
def pending (p : Nat) (x : PSet) : List Nat :=
  match x.job with
  | .store t u => if p ∈ t then [u.gn] else []
  | _ => []

@[simp] theorem drop_job (x : PSet) : (drop x).job = x.job := by unfold drop; split <;> rfl
@[simp] theorem drop_lastGn (x : PSet) : (drop x).lastGn = x.lastGn := by unfold drop; split <;> rfl
@[simp] theorem drop_inTree (x : PSet) : (drop x).inTree = x.inTree := by unfold drop; split <;> rfl
@[simp] theorem drop_content (x : PSet) : (drop x).content = x.content := by unfold drop; split <;> rfl
@[simp] theorem drop_st (x : PSet) : (drop x).st = x.st := by unfold drop; split <;> rfl

theorem drop_att (x : PSet) : (drop x).att = x.att ∨ ((drop x).att = [] ∧ (drop x).live = false) := by
  unfold drop; split <;> simp

theorem pending_drop (p : Nat) (x : PSet) : pending p (drop x) = pending p x := by simp [pending]

theorem storedOf_append (p i : Nat) (a b : List Stored) : storedOf p i (a ++ b) = storedOf p i a ++ storedOf p i b := by
  simp [storedOf]

theorem samples_snoc (i : Nat) (l : List Nat) (es : List Ev) (e : Ev) :
    samples i l (es ++ [e]) = sample1 i (samples i l es) e := by
  simp [samples]

theorem samples_append (i : Nat) (l : List Nat) (as bs : List Ev) :
    samples i l (as ++ bs) = samples i (samples i l as) bs := by
  simp [samples]

theorem sample1_other (i : Nat) (l : List Nat) (e : Ev) (h : ∀ u, e ≠ .updated i u) : sample1 i l e = l := by
  cases e with
  | updated j u =>
    simp only [sample1]
    rw [if_neg]
    intro hh
    exact h u (by rw [hh.1])
  | _ => rfl

theorem stores_other (g : Cfg) (s : State) (p i : Nat) (e : Ev) (h : e ≠ .storeOne i) :
    storedOf p i (stores g s e) = [] := by
  cases e with
  | storeOne k =>
    have hk : k ≠ i := fun hh => h (by rw [hh])
    simp only [stores]
    repeat' split
    all_goals simp [storedOf, hk]
  | _ => rfl

theorem stores_self (g : Cfg) (s : State) (p i q : Nat) (ps : List Nat) (u : Upd)
    (hj : (s.sets i).job = .store (q :: ps) u) :
    storedOf p i (stores g s (.storeOne i)) =
      if q = p ∧ (s.pols p).running = true ∧ can g p (s.pols p) = true then [u.gn] else [] := by
  simp only [stores, hj, can]
  by_cases hq : q = p
  · subst hq
    rcases Bool.eq_false_or_eq_true (s.pols q).running with h1 | h1 <;>
    rcases Bool.eq_false_or_eq_true (g.decomp q) with h2 | h2 <;>
    rcases Bool.eq_false_or_eq_true (s.pols q).decomp with h3 | h3 <;>
    rcases Bool.eq_false_or_eq_true (s.pols q).handle with h4 | h4 <;> simp [storedOf, h1, h2, h3, h4]
  · simp only [hq, false_and, if_false]
    repeat' split
    all_goals simp [storedOf, hq]

theorem step_used (g : Cfg) (s s' : State) (e : Ev) (h : step g s e = .ok s') :
    s'.used = (match e with
      | .add i => i :: s.used
      | _ => s.used) := by
  cases e with
  | reset i =>
    simp only [step] at h
    split at h
    · cases h
    · split at h
      · next s1 h1 =>
        split at h
        · cases h
        · rw [(put_ok h).2.1, (put_ok h1).2.1]
      · next hr => exact (hr _ h).elim
  | attachOne i ok =>
    simp only [step] at h
    split at h
    · rcases syncOne_ok h with ⟨ha, rfl⟩ | ⟨ha, c, hc, rfl⟩ <;> rfl
    · cases h
  | scan p i ok =>
    simp only [step] at h
    repeat' split at h
    all_goals first
      | (cases h; done)
      | (cases h; rfl)
      | (rcases syncOne_ok h with ⟨ha, rfl⟩ | ⟨ha, c, hc, rfl⟩ <;> rfl)
  | _ =>
    simp only [step] at h
    repeat' split at h
    all_goals first
      | (cases h; done)
      | (cases h; rfl)
      | exact (put_ok h).2.1

theorem unused (g : Cfg) : ∀ es s, Reach g es s → (∀ e ∈ es, isGroup e = false) → ∀ j, j ∉ s.used → s.sets j = {} := by
  apply reach_induction
  · intro _ j _; rfl
  · intro es e s s' _ ih hs hg j hj
    have hu := step_used g s s' e hs
    have hx : s.sets j = {} := by
      apply ih (fun e h => hg e (List.mem_append_left _ h)) j
      intro h
      apply hj
      rw [hu]
      split
      · exact List.mem_cons_of_mem _ h
      · exact h
    have ht := step_sets g s s' e (hg e (by simp)) hs j
    rw [hx] at ht
    generalize hy : s'.sets j = y at ht ⊢
    cases ht with
    | same => rfl
    | add => exact absurd (by rw [hu]; simp) hj
    | req _ _ h => cases h
    | look _ _ h => cases h
    | skip _ _ h => cases h
    | lookFail h => exact absurd rfl h
    | lookOk _ h => exact absurd rfl h
    | att _ _ _ _ h => cases h
    | attEnd h => cases h
    | scan _ _ _ h => cases h
    | updErr _ h => exact absurd rfl h
    | updErrMore _ h => exact absurd rfl h
    | updOld _ _ h => exact absurd rfl h
    | updOldMore _ _ h => exact absurd rfl h
    | updNew _ h => exact absurd rfl h
    | storeOne _ _ _ h => cases h
    | storeMore _ h => cases h
    | storeEnd _ h => cases h
    | reset h => cases h

/-- what a step does to what is stored, what is pending and what was sampled, for a policy and a set -/
theorem flow (g : Cfg) (s s' : State) (e : Ev) (p i : Nat) (l : List Nat) (hg : isGroup e = false)
    (hG : Good (s.sets i)) (hU : i ∉ s.used → s.sets i = {}) (hl : (s.sets i).lastGn = l.getLastD 0) (h : step g s e = .ok s') :
    (s'.sets i).lastGn = (sample1 i l e).getLastD 0 ∧
    ((storedOf p i s'.log ++ pending p (s'.sets i) = storedOf p i s.log ++ pending p (s.sets i) ∧ sample1 i l e = l) ∨
     (∃ u, e = .updated i u ∧ sample1 i l e = l ++ [u.gn] ∧ (s.sets i).updates ≠ 0 ∧
        storedOf p i s'.log ++ pending p (s'.sets i) =
          storedOf p i s.log ++ pending p (s.sets i) ++ (if p ∈ (s.sets i).att then [u.gn] else [])) ∨
     (∃ q ps u, e = .storeOne i ∧ (s.sets i).job = .store (q :: ps) u ∧ sample1 i l e = l ∧
        storedOf p i s'.log ++ pending p (s'.sets i) =
          storedOf p i s.log ++ (if q = p ∧ ¬ ((s.pols p).running = true ∧ can g p (s.pols p) = true) then []
            else pending p (s.sets i)))) := by
  have hlog := step_log g s s' e h
  have ht := step_sets g s s' e hg h i
  rw [hlog, storedOf_append]
  generalize hx : s.sets i = x at hG hU hl ht ⊢
  generalize s'.sets i = y at ht ⊢
  cases ht with
  | same _ h1 h2 =>
    rw [stores_other _ _ _ _ _ h2, sample1_other _ _ _ h1]
    exact ⟨hl, .inl (by simp)⟩
  | add hj =>
    rw [stores_other _ _ _ _ _ (fun h => by cases h), sample1_other _ _ _ (fun u h => by cases h)]
    have := hU hj
    subst this
    exact ⟨hl, .inl ⟨by simp [pending], rfl⟩⟩
  | storeOne q ps u hj =>
    have hj' := hj
    rw [← hx] at hj'
    rw [stores_self g s p i q ps u hj', sample1_other _ _ _ (fun u h => by cases h)]
    refine ⟨hl, .inr (.inr ⟨q, ps, u, rfl, hj, rfl, ?_⟩)⟩
    have hnd := (hG.storing _ _ hj).2.1
    rw [List.nodup_cons] at hnd
    simp only [pending, hj]
    by_cases hq : q = p
    · subst hq
      by_cases hc : (s.pols q).running = true ∧ can g q (s.pols q) = true
      · simp [hc, hnd.1]
      · simp [hc, hnd.1]
    · have hq' : p ≠ q := fun h => hq h.symm
      simp [hq, hq']
  | updNew u hu hj hv he ho hgn =>
    have hs : sample1 i l (.updated i u) = l ++ [u.gn] := by
      simp only [sample1]
      rw [if_pos ⟨trivial, he, ho, by rw [← hl]; exact hgn⟩]
    rw [stores_other _ _ _ _ _ (fun h => by cases h), hs]
    exact ⟨by simp, .inr (.inl ⟨u, rfl, rfl, hu, by simp [pending, hj]⟩)⟩
  | updErr u hu hj hv he hm =>
    rw [stores_other _ _ _ _ _ (fun h => by cases h)]
    have hs : sample1 i l (.updated i u) = l := by simp [sample1, he]
    rw [hs]
    exact ⟨by simpa using hl, .inl ⟨by rw [pending_drop]; simp [pending], rfl⟩⟩
  | updErrMore u hu hj hv he hm =>
    rw [stores_other _ _ _ _ _ (fun h => by cases h)]
    have hs : sample1 i l (.updated i u) = l := by simp [sample1, he]
    rw [hs]
    exact ⟨by simpa using hl, .inl ⟨by simp [pending], rfl⟩⟩
  | updOld u n hu hj hv he ho hm =>
    rw [stores_other _ _ _ _ _ (fun h => by cases h)]
    have hs : sample1 i l (.updated i u) = l := by
      simp only [sample1]
      rw [if_neg]
      rintro ⟨_, _, h1, h2⟩
      rcases ho with ho | ho
      · rw [ho] at h1; cases h1
      · exact h2 (by rw [ho, hl])
    rw [hs]
    exact ⟨by simpa using hl, .inl ⟨by rw [pending_drop]; simp [pending], rfl⟩⟩
  | updOldMore u n hu hj hv he ho hm =>
    rw [stores_other _ _ _ _ _ (fun h => by cases h)]
    have hs : sample1 i l (.updated i u) = l := by
      simp only [sample1]
      rw [if_neg]
      rintro ⟨_, _, h1, h2⟩
      rcases ho with ho | ho
      · rw [ho] at h1; cases h1
      · exact h2 (by rw [ho, hl])
    rw [hs]
    exact ⟨by simpa using hl, .inl ⟨by simp [pending], rfl⟩⟩
  | req fresh ok ht hs =>
    rw [stores_other _ _ _ _ _ (fun h => by cases h), sample1_other _ _ _ (fun u h => by cases h)]
    simp only [request]
    split <;> exact ⟨by simpa using hl, .inl ⟨by simp [pending], trivial⟩⟩
  | att q ps ok a hj ha hd hn =>
    rw [stores_other _ _ _ _ _ (fun h => by cases h), sample1_other _ _ _ (fun u h => by cases h)]
    exact ⟨by simpa using hl, .inl ⟨by simp [pending, hj], rfl⟩⟩
  | lookOk c h1 h2 h3 h4 =>
    rw [stores_other _ _ _ _ _ (fun h => by cases h), sample1_other _ _ _ (fun u h => by cases h)]
    exact ⟨by simpa using hl, .inl ⟨by simp [pending, h2], rfl⟩⟩
  | attEnd hj =>
    rw [stores_other _ _ _ _ _ (fun h => by cases h), sample1_other _ _ _ (fun u h => by cases h)]
    exact ⟨by simpa using hl, .inl ⟨by simp [pending, hj], rfl⟩⟩
  | storeMore u hj hm =>
    rw [stores_other _ _ _ _ _ (fun h => by cases h), sample1_other _ _ _ (fun u h => by cases h)]
    exact ⟨by simpa using hl, .inl ⟨by simp [pending, hj], rfl⟩⟩
  | storeEnd u hj hm =>
    rw [stores_other _ _ _ _ _ (fun h => by cases h), sample1_other _ _ _ (fun u h => by cases h)]
    exact ⟨by simpa using hl, .inl ⟨by simp [pending, hj], rfl⟩⟩
  | _ =>
    rw [stores_other _ _ _ _ _ (fun h => by cases h), sample1_other _ _ _ (fun u h => by cases h)]
    exact ⟨by simpa using hl, .inl ⟨by simp [pending], rfl⟩⟩

theorem stored_sublist (g : Cfg) (p i : Nat) : ∀ es s, Reach g es s → (∀ e ∈ es, isGroup e = false) →
    (s.sets i).lastGn = (samples i [] es).getLastD 0 ∧
      (storedOf p i s.log ++ pending p (s.sets i)).Sublist (samples i [] es) := by
  apply reach_induction
  · intro _; exact ⟨rfl, by simp [init, storedOf, pending, samples]⟩
  · intro es e s s' hr ih hs hg
    have hg' := fun e h => hg e (List.mem_append_left _ h)
    obtain ⟨h1, h2⟩ := ih hg'
    have hf := flow g s s' e p i _ (hg e (by simp)) (all_good g es s hr hg' i) (unused g es s hr hg' i) h1 hs
    rw [samples_snoc]
    refine ⟨hf.1, ?_⟩
    rcases hf.2 with ⟨ha, hb⟩ | ⟨u, rfl, hb, _, ha⟩ | ⟨q, ps, u, rfl, hj, hb, ha⟩
    · rw [ha, hb]; exact h2
    · rw [ha, hb]
      apply List.Sublist.append h2
      split
      · exact List.Sublist.refl _
      · exact List.nil_sublist _
    · rw [ha, hb]
      refine List.Sublist.trans ?_ h2
      apply List.Sublist.append (List.Sublist.refl _)
      split
      · exact List.nil_sublist _
      · exact List.Sublist.refl _

/-! ## A policy that can be called stays so until it is stopped -/

theorem sync_can (g : Cfg) (p : Nat) (x : Pol) (c : Content) (a : List Nat) (ok : Bool) (h : can g p x = true) :
    can g p (sync g p x c a ok).1 = true := by
  unfold can at h ⊢
  unfold sync
  dsimp only
  by_cases hd : g.decomp p = true
  · rw [if_pos hd] at h ⊢
    repeat' split
    all_goals simp_all
  · rw [if_neg hd] at h ⊢
    repeat' split
    all_goals simp_all

theorem openStore_running (x : Pol) (c : Content) (ok : Bool) : (openStore x c ok).1.running = x.running := by
  unfold openStore
  repeat' split
  all_goals (dsimp only; repeat' split)
  all_goals rfl

theorem sync_running (g : Cfg) (p : Nat) (x : Pol) (c : Content) (a : List Nat) (ok : Bool) :
    (sync g p x c a ok).1.running = x.running := by
  unfold sync
  dsimp only
  repeat' split
  all_goals simp [openStore_running]

theorem can_same {g : Cfg} {p : Nat} {x y : Pol} (h : SamePol x y) : can g p y = can g p x := by
  obtain ⟨_, h2, h3, _⟩ := h
  simp [can, h2, h3]

theorem usable_step {g : Cfg} {s : State} {q : Nat} {x y : Pol} {e : Ev} (h : PolTr g s q x e y) (he : e ≠ .stop q)
    (hr : x.running = true) (hc : can g q x = true) : y.running = true ∧ can g q y = true := by
  cases h with
  | same _ _ h => exact ⟨h.1.trans hr, by rw [can_same h]; exact hc⟩
  | start => exact ⟨rfl, hc⟩
  | stop => exact absurd rfl he
  | att i ok ps c hj ha hct => exact ⟨by rw [sync_running]; exact hr, sync_can _ _ _ _ _ _ hc⟩
  | scan i ok c ht ha hct => exact ⟨by rw [sync_running]; exact hr, sync_can _ _ _ _ _ _ hc⟩
  | selfStop i ps u hj hr' hh => rw [can] at hc; rw [hc] at hh; cases hh

/-- a policy stays with a set as long as the set is there and the policy runs -/
theorem att_step {g : Cfg} {s : State} {p j : Nat} {x y : PSet} {e : Ev} (h : SetTr g s j x e y)
    (hr : (s.pols p).running = true) (hu : j ∈ s.used) (hp : p ∈ x.att) :
    y.live = true → p ∈ y.att := by
  have hsync : ∀ (q : Nat) (ok : Bool) (c : Content), p ∈ (sync g q (s.pols q) c x.att ok).2 := by
    intro q ok c
    by_cases hq : q = p
    · subst hq
      unfold sync
      dsimp only
      rw [if_neg (by simp [hr]), if_pos hp]
      exact hp
    · rcases sync_att g q (s.pols q) c x.att ok with h | h | ⟨_, h⟩
      · rw [h]; exact hp
      · rw [h]; exact (List.mem_erase_of_ne (fun h => hq h.symm)).mpr hp
      · rw [h]; exact List.mem_cons_of_mem _ hp
  have hdrop : ∀ z : PSet, z.att = x.att → (drop z).live = true → p ∈ (drop z).att := by
    intro z hz hl
    rcases drop_att z with h | ⟨_, h⟩
    · rw [h, hz]; exact hp
    · rw [h] at hl; cases hl
  intro hl
  cases h with
  | add h => exact absurd hu h
  | req fresh ok _ _ => simp only [request]; split <;> exact hp
  | att q ps ok a hj ha hd hn =>
    cases hap : g.applies q j with
    | true => obtain ⟨c, _, rfl⟩ := hd hap; exact hsync q ok c
    | false => rw [hn hap]; exact hp
  | scan q ok a ht hj hs ha hd hn =>
    cases hap : g.applies q j with
    | true => obtain ⟨c, _, rfl⟩ := hd hap; exact hsync q ok c
    | false => rw [hn hap]; exact hp
  | lookFail => exact hdrop _ rfl hl
  | attEnd => exact hdrop _ rfl hl
  | updErr => exact hdrop _ rfl hl
  | updOld => exact hdrop _ rfl hl
  | storeEnd => exact hdrop _ rfl hl
  | reset ht hv =>
    refine hdrop _ ?_ hl
    rcases drop_att { x with inTree := false } with h | ⟨_, h⟩
    · exact h
    · rw [h] at hv; cases hv
  | _ => exact hp

theorem used_mono {g : Cfg} {s s' : State} {e : Ev} (h : step g s e = .ok s') {j : Nat} (hj : j ∈ s.used) :
    j ∈ s'.used := by
  rw [step_used g s s' e h]
  split
  · exact List.mem_cons_of_mem _ hj
  · exact hj

theorem dead_step {g : Cfg} {s : State} {j : Nat} {x y : PSet} {e : Ev} (h : SetTr g s j x e y) (hu : j ∈ s.used)
    (hG : Good x) (hv : x.live = false) : y = x := by
  have h0 : x.refs = 0 := by
    have := hG.live
    rw [hv] at this
    simpa using this.symm
  have hr := hG.refs
  rw [h0] at hr
  have ht : x.inTree = false := by
    cases hx : x.inTree with
    | false => rfl
    | true => rw [hx] at hr; simp at hr; omega
  rw [ht] at hr
  simp only [Bool.false_eq_true, if_false] at hr
  have hl : x.lookups = 0 := by omega
  have hup : x.updates = 0 := by omega
  cases h with
  | same => rfl
  | add h => exact absurd hu h
  | req _ _ h => rw [h] at ht; cases ht
  | look _ _ h => rw [h] at ht; cases ht
  | skip _ _ h => rw [h] at ht; cases ht
  | lookFail h => exact absurd hl h
  | lookOk _ h => exact absurd hl h
  | att _ _ _ _ h => have := (hG.attaching _ h).1; omega
  | attEnd h => have := (hG.attaching _ h).1; omega
  | scan _ _ _ h => rw [h] at ht; cases ht
  | updErr _ h => exact absurd hup h
  | updErrMore _ h => exact absurd hup h
  | updOld _ _ h => exact absurd hup h
  | updOldMore _ _ h => exact absurd hup h
  | updNew _ h => exact absurd hup h
  | storeOne _ _ _ h => have := (hG.storing _ _ h).1; omega
  | storeMore _ h => have := (hG.storing _ _ h).1; omega
  | storeEnd _ h => have := (hG.storing _ _ h).1; omega
  | reset h => rw [h] at ht; cases ht

/-- from a state in which a policy is with a set and can be called, all that is sampled is stored, until the
policy is stopped -/
theorem stored_all (g : Cfg) (p i : Nat) (es1 : List Ev) (s1 : State) (h1 : Reach g es1 s1)
    (hg1 : ∀ e ∈ es1, isGroup e = false) (hu : i ∈ s1.used) (hp : (s1.sets i).live = true → p ∈ (s1.sets i).att)
    (hr : (s1.pols p).running = true) (hc : can g p (s1.pols p) = true) :
    ∀ es2 s2, Reach g (es1 ++ es2) s2 → (∀ e ∈ es2, isGroup e = false ∧ e ≠ .stop p) →
      i ∈ s2.used ∧ ((s2.sets i).live = true → p ∈ (s2.sets i).att) ∧ (s2.pols p).running = true ∧
      can g p (s2.pols p) = true ∧ (s2.sets i).lastGn = (samples i [] (es1 ++ es2)).getLastD 0 ∧
      ∃ new, samples i [] (es1 ++ es2) = samples i [] es1 ++ new ∧
        storedOf p i s2.log ++ pending p (s2.sets i) = storedOf p i s1.log ++ pending p (s1.sets i) ++ new := by
  intro es2
  induction es2 using snoc_induction with
  | nil =>
    intro s2 h2 _
    rw [List.append_nil] at h2 ⊢
    have : s2 = s1 := by
      have := h2.symm.trans h1
      injection this
    subst this
    exact ⟨hu, hp, hr, hc, (stored_sublist g p i es1 s2 h1 hg1).1, [], by simp, by simp⟩
  | snoc es2 e ih =>
    intro s3 h3 hh
    rw [← List.append_assoc] at h3
    obtain ⟨s2, h2, hs⟩ := reach_snoc.mp h3
    obtain ⟨u2, a2, r2, c2, l2, new, n2, f2⟩ := ih s2 h2 (fun e h => hh e (List.mem_append_left _ h))
    have hg2 : ∀ e ∈ es1 ++ es2, isGroup e = false := by
      intro e h
      rcases List.mem_append.mp h with h | h
      · exact hg1 e h
      · exact (hh e (List.mem_append_left _ h)).1
    have he := hh e (by simp)
    have hG := all_good g _ s2 h2 hg2 i
    have hP := usable_step (step_pols g s2 s3 e hs p) he.2 r2 c2
    have hS := step_sets g s2 s3 e he.1 hs i
    have hf := flow g s2 s3 e p i _ he.1 hG (unused g _ s2 h2 hg2 i) l2 hs
    rw [← List.append_assoc, samples_snoc]
    refine ⟨used_mono hs u2, ?_, hP.1, hP.2, hf.1, ?_⟩
    · cases hv : (s2.sets i).live with
      | true => exact att_step hS r2 u2 (a2 hv)
      | false => rw [dead_step hS u2 hG hv]; exact a2
    · rcases hf.2 with ⟨ha, hb⟩ | ⟨u, rfl, hb, hup, ha⟩ | ⟨q, ps, u, rfl, hj, hb, ha⟩
      · exact ⟨new, by rw [hb, n2], by rw [ha, f2]⟩
      · refine ⟨new ++ [u.gn], by rw [hb, n2, List.append_assoc], ?_⟩
        have hv := (good_refs hG (.inr (.inl hup))).2
        rw [ha, f2, if_pos (a2 hv), List.append_assoc]
      · refine ⟨new, by rw [hb, n2], ?_⟩
        rw [ha, if_neg (by simp [r2, c2]), f2]

end Verif.Pipeline
