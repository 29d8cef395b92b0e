import Verif.Pipeline.Attach

namespace Verif.Pipeline

/-! ## All that should be attached is -/

/-- every set the policy applies to has the content `C`, which has the policy's metrics -/
def Uniform (g : Cfg) (p : Nat) (C : Content) (es : List Ev) : Prop :=
  (∀ m ∈ g.metrics p, m ∈ C.names) ∧ ∀ i c, Ev.looked i (some c) ∈ es → g.applies p i = true → c = C

theorem idxOf_some {ns : List Nat} {m : Nat} (h : m ∈ ns) : ∃ k, idxOf ns m = some k := by
  induction ns with
  | nil => cases h
  | cons n ns ih =>
    simp only [idxOf]
    split
    · exact ⟨0, rfl⟩
    · next hn =>
      rcases List.mem_cons.mp h with rfl | h
      · exact absurd rfl hn
      · obtain ⟨k, hk⟩ := ih h
        exact ⟨k + 1, by rw [hk]; rfl⟩

theorem idxOf_get {ns : List Nat} {m k : Nat} (h : idxOf ns m = some k) : ns[k]? = some m := by
  induction ns generalizing k with
  | nil => cases h
  | cons n ns ih =>
    simp only [idxOf] at h
    split at h
    · next hn => cases h; simp [hn]
    · cases hk : idxOf ns m with
      | none => rw [hk] at h; cases h
      | some j =>
        rw [hk] at h
        simp only [Option.map_some, Option.some.injEq] at h
        subst h
        simpa using ih hk

theorem indexes_some {ns ms : List Nat} (h : ∀ m ∈ ms, m ∈ ns) : ∃ ks, indexes ns ms = some ks := by
  induction ms with
  | nil => exact ⟨[], rfl⟩
  | cons m ms ih =>
    obtain ⟨k, hk⟩ := idxOf_some (h m (by simp))
    obtain ⟨ks, hks⟩ := ih (fun m hm => h m (List.mem_cons_of_mem _ hm))
    exact ⟨k :: ks, by simp [indexes, hk, hks]⟩

theorem indexes_get {ns ms ks : List Nat} (h : indexes ns ms = some ks) : ks.map (ns[·]?) = ms.map some := by
  induction ms generalizing ks with
  | nil => cases h; rfl
  | cons m ms ih =>
    simp only [indexes] at h
    split at h
    · cases h
    · next k hk =>
      split at h
      · cases h
      · next ks' hks =>
        cases h
        simp only [List.map_cons, idxOf_get hk, ih hks]

/-- the policy has met no other content -/
structure Fits (g : Cfg) (p : Nat) (C : Content) (x : Pol) : Prop where
  digest : x.digest = none ∨ x.digest = some C.digest
  list : x.list = g.metrics p ∨ x.list = C.names

theorem fits_list {g : Cfg} {p : Nat} {C : Content} {x : Pol} (hm : ∀ m ∈ g.metrics p, m ∈ C.names)
    (h : Fits g p C x) : ∀ m ∈ x.list, m ∈ C.names := by
  intro m hm'
  rcases h.list with h | h
  · rw [h] at hm'; exact hm m hm'
  · rwa [h] at hm'

theorem openStore_fits {g : Cfg} {p : Nat} {C : Content} {x : Pol} (hm : ∀ m ∈ g.metrics p, m ∈ C.names)
    (h : Fits g p C x) : Fits g p C (openStore x C true).1 ∧ (openStore x C true).2 = true := by
  have hd : ∀ y : Pol, y.digest = x.digest → y.digest.any (· ≠ C.digest) = false := by
    intro y hy
    rw [hy]
    rcases h.digest with h | h <;> simp [h]
  unfold openStore
  by_cases hl : x.list.isEmpty = true
  · simp only [hl, if_true]
    rw [if_neg (by rw [hd x rfl]; simp)]
    obtain ⟨ks, hk⟩ := indexes_some (ns := C.names) (ms := C.names) (fun _ h => h)
    simp only [hk]
    exact ⟨⟨.inr rfl, .inr rfl⟩, trivial⟩
  · simp only [hl, Bool.false_eq_true, if_false]
    rw [if_neg (by rw [hd x rfl]; simp)]
    obtain ⟨ks, hk⟩ := indexes_some (fits_list hm h)
    simp only [hk, if_true]
    exact ⟨⟨.inr rfl, h.list⟩, trivial⟩

theorem sync_fits {g : Cfg} {p : Nat} {C : Content} {x : Pol} {a : List Nat} (hm : ∀ m ∈ g.metrics p, m ∈ C.names)
    (h : Fits g p C x) : Fits g p C (sync g p x C a true).1 ∧ (x.running = true → p ∈ (sync g p x C a true).2) := by
  have ho := openStore_fits hm h
  unfold sync
  dsimp only
  by_cases hr : x.running = false
  · rw [if_pos hr]; exact ⟨h, fun h => by rw [hr] at h; cases h⟩
  · rw [if_neg hr]
    by_cases ha : p ∈ a
    · rw [if_pos ha]; exact ⟨h, fun _ => ha⟩
    · rw [if_neg ha]
      by_cases hd : g.decomp p = true
      · rw [if_pos hd, if_pos (by simp)]
        exact ⟨⟨h.digest, h.list⟩, fun _ => by simp⟩
      · rw [if_neg hd, if_neg (by rcases h.digest with h | h <;> simp [h])]
        split
        · exact ⟨⟨h.digest, h.list⟩, fun _ => by simp⟩
        · rw [if_pos ho.2]
          exact ⟨⟨ho.1.digest, ho.1.list⟩, fun _ => by simp⟩

theorem content_step {g : Cfg} {s : State} {j : Nat} {x y : PSet} {e : Ev} (h : SetTr g s j x e y) :
    y.content = x.content ∨ (∃ c, e = .looked j (some c) ∧ x.content = none ∧ y.content = some c) ∨
      (e = .add j ∧ y.content = none) := by
  cases h with
  | add => exact .inr (.inr ⟨rfl, rfl⟩)
  | lookOk c _ _ _ hc => exact .inr (.inl ⟨c, rfl, hc, rfl⟩)
  | req fresh ok => simp only [request]; split <;> exact .inl rfl
  | reset => exact .inl (by simp)
  | _ => exact .inl (by first | rfl | simp)

/-- the content of a set is what its lookup brought -/
theorem content_from (g : Cfg) : ∀ es s, Reach g es s → (∀ e ∈ es, isGroup e = false) →
    ∀ i c, (s.sets i).content = some c → Ev.looked i (some c) ∈ es := by
  apply reach_induction
  · intro _ i c h; cases h
  · intro es e s s' _ ih hs hg i c hc
    rcases content_step (step_sets g s s' e (hg e (by simp)) hs i) with h | ⟨c', rfl, _, h⟩ | ⟨_, h⟩
    · rw [h] at hc
      exact List.mem_append_left _ (ih (fun e h => hg e (List.mem_append_left _ h)) i c hc)
    · rw [h] at hc; cases hc; simp
    · rw [h] at hc; cases hc

/-- where a policy may still be missing -/
def Awaits (s : State) (p i : Nat) : Prop :=
  i ∈ s.todo p ∨ (∃ t, (s.sets i).job = .attach t ∧ p ∈ t) ∨ p ∈ (s.sets i).att

theorem awaits_step {g : Cfg} {s : State} {p j : Nat} {x y : PSet} {e : Ev} (h : SetTr g s j x e y)
    (h1 : ∀ ok, e ≠ .attachOne j ok) (hr : (s.pols p).running = true) (hu : j ∈ s.used) (hv : y.live = true)
    (hx : (∃ t, x.job = .attach t ∧ p ∈ t) ∨ p ∈ x.att) : (∃ t, y.job = .attach t ∧ p ∈ t) ∨ p ∈ y.att := by
  rcases hx with ⟨t, hj, hp⟩ | hp
  · cases h with
    | add h => exact absurd hu h
    | req fresh ok => left; simp only [request]; split <;> exact ⟨t, hj, hp⟩
    | lookFail _ h => rw [hj] at h; cases h
    | lookOk _ _ h => rw [hj] at h; cases h
    | att _ _ ok => exact absurd rfl (h1 ok)
    | attEnd h => rw [hj] at h; cases h; cases hp
    | scan _ _ _ _ h => rw [hj] at h; cases h
    | updErr _ _ h => rw [hj] at h; cases h
    | updErrMore _ _ h => rw [hj] at h; cases h
    | updOld _ _ _ h => rw [hj] at h; cases h
    | updOldMore _ _ _ h => rw [hj] at h; cases h
    | updNew _ _ h => rw [hj] at h; cases h
    | storeOne _ _ _ h => rw [hj] at h; cases h
    | storeMore _ h => rw [hj] at h; cases h
    | storeEnd _ h => rw [hj] at h; cases h
    | reset => left; simp only [drop_job]; exact ⟨t, hj, hp⟩
    | _ => exact .inl ⟨t, hj, hp⟩
  · exact .inr (att_step h hr hu hp hv)

theorem all_attached (g : Cfg) (p : Nat) (C : Content) (hp : p ∈ g.pols) : ∀ es s, Reach g es s →
    (∀ e ∈ es, isGroup e = false) → Granted es → Uniform g p C es →
    Fits g p C (s.pols p) ∧
    ∀ i, (s.sets i).inTree = true → (s.sets i).content ≠ none → g.applies p i = true → (s.pols p).running = true →
      Awaits s p i := by
  apply reach_induction
  · intro _ _ _
    exact ⟨⟨.inl rfl, .inl rfl⟩, fun i h => by cases h⟩
  · intro es e s s' hR ih hs hg hgr hun
    have hg' := fun e h => hg e (List.mem_append_left _ h)
    have hgr' : Granted es := fun e h => hgr e (List.mem_append_left _ h)
    have hun' : Uniform g p C es := ⟨hun.1, fun i c h => hun.2 i c (List.mem_append_left _ h)⟩
    obtain ⟨hF, hA⟩ := ih hg' hgr' hun'
    have hge := hgr e (by simp)
    have hC : ∀ i c, (s.sets i).content = some c → g.applies p i = true → c = C := by
      intro i c hc ha
      exact hun'.2 i c (content_from g es s hR hg' i c hc) ha
    have hG' := all_good g (es ++ [e]) s' (reach_snoc.mpr ⟨s, hR, hs⟩) hg
    have hU := unused g es s hR hg'
    have hused : ∀ j, (s.sets j).inTree = true → j ∈ s.used := by
      intro j h
      apply Classical.byContradiction
      intro hj
      rw [hU j hj] at h
      cases h
    have hP := step_pols g s s' e hs p
    constructor
    · generalize s'.pols p = y at hP
      cases hP with
      | same _ _ h => obtain ⟨_, _, _, h1, h2, _⟩ := h; exact ⟨by rw [h1]; exact hF.digest, by rw [h2]; exact hF.list⟩
      | start => exact ⟨hF.digest, hF.list⟩
      | stop => exact ⟨hF.digest, hF.list⟩
      | att i ok ps c hj ha hc =>
        cases (hge : ok = true)
        cases hC i c hc ha
        exact (sync_fits hun.1 hF).1
      | scan i ok c ht ha hc =>
        cases (hge : ok = true)
        cases hC i c hc ha
        exact (sync_fits hun.1 hF).1
      | selfStop => exact ⟨hF.digest, hF.list⟩
    · intro j ht hct hap hrun
      have hS := step_sets g s s' e (hg e (by simp)) hs j
      have hv : (s'.sets j).live = true := (good_refs (hG' j) (.inr (.inr ht))).2
      by_cases hnew : (s.sets j).content = none
      · rcases content_step hS with h | ⟨c, rfl, _, _⟩ | ⟨_, h⟩
        · exact absurd (h.trans hnew) hct
        · have : (s'.sets j).job = .attach g.pols := by
            generalize s'.sets j = y at hS hct
            cases hS with
            | same => exact absurd hnew hct
            | lookOk => rfl
          exact .inr (.inl ⟨_, this, hp⟩)
        · exact absurd h hct
      · have hte : (s.sets j).inTree = true := by
          generalize s'.sets j = y at hS ht
          cases hS with
          | add h => exact absurd (by rw [hU j h]) hnew
          | req fresh ok h => exact h
          | look fresh ok h => exact h
          | skip fresh ok h => exact h
          | reset h => exact h
          | lookFail => simpa using ht
          | attEnd => simpa using ht
          | updErr => simpa using ht
          | updOld => simpa using ht
          | storeEnd => simpa using ht
          | _ => exact ht
        have hu := hused j hte
        by_cases hr : (s.pols p).running = true
        · -- the policy was running before
          have hw := hA j hte hnew hap hr
          by_cases hsc : ∃ q i ok, e = .scan q i ok
          · obtain ⟨q, i, ok, rfl⟩ := hsc
            obtain ⟨hi, htd, hso, hpo, hcase⟩ := scan_step hs
            by_cases hqi : q = p ∧ i = j
            · obtain ⟨rfl, rfl⟩ := hqi
              rcases hcase with ⟨h1, h2, h3⟩ | ⟨h1, h2, h3, c, h4, h5, h6⟩
              · have hG := all_good g es s hR hg'
                rcases h3 with h3 | h3 | h3
                · rw [h3] at hte; cases hte
                · rcases h3 with h3 | h3
                  · exact absurd ((hG i).start hte h3).1 hnew
                  · exact absurd ((hG i).lookup hte h3).2 hnew
                · rw [h3] at hap; cases hap
              · cases (hge : ok = true)
                cases hC i c h4 hap
                refine .inr (.inr ?_)
                rw [h5]
                exact (sync_fits hun.1 hF).2 hr
            · rcases hw with hw | hw
              · left
                rw [htd]
                dsimp only
                split
                · next hpq =>
                  subst hpq
                  refine List.mem_filter.mpr ⟨hw, ?_⟩
                  have : j ≠ i := fun h => hqi ⟨rfl, h.symm⟩
                  simpa using this
                · exact hw
              · exact .inr (awaits_step hS (fun ok h => by cases h) hr hu hv hw)
          · have htd := step_todo g s s' e hs (fun q i ok h => hsc ⟨q, i, ok, h⟩) p
            rcases hw with hw | hw
            · left
              rcases htd with ⟨h, _⟩ | ⟨_, h⟩
              · rw [h]; exact hw
              · rw [h]; exact List.mem_filter.mpr ⟨hu, hte⟩
            · by_cases hat : ∃ ok, e = .attachOne j ok
              · obtain ⟨ok, rfl⟩ := hat
                obtain ⟨q, ps, hj, htd, hso, hpo, hcase⟩ := attach_step hs
                right
                by_cases hqp : q = p
                · subst hqp
                  rcases hcase with ⟨h1, h2, h3⟩ | ⟨h3, c, h4, h5, h6⟩
                  · rw [h3] at hap; cases hap
                  · cases (hge : ok = true)
                    cases hC j c h4 hap
                    right
                    rw [h5]
                    exact (sync_fits hun.1 hF).2 hr
                · rcases hw with ⟨t, h1, h2⟩ | hw
                  · left
                    rw [hj] at h1
                    cases h1
                    refine ⟨ps, ?_, ?_⟩
                    · rcases hcase with ⟨h1, _, _⟩ | ⟨_, c, _, h5, _⟩
                      · rw [h1]
                      · rw [h5]
                    · rcases List.mem_cons.mp h2 with h | h
                      · exact absurd h.symm hqp
                      · exact h
                  · exact .inr (att_step hS hr hu hw hv)
              · exact .inr (awaits_step hS (fun ok h => hat ⟨ok, h⟩) hr hu hv hw)
        · -- it has just been started
          left
          have hr : (s.pols p).running = false := by simpa using hr
          generalize s'.pols p = y at hP hrun
          cases hP with
          | same _ _ h => rw [h.1, hr] at hrun; cases hrun
          | start =>
            rcases step_todo g s s' _ hs (fun q i ok h => by cases h) p with ⟨_, h, _⟩ | ⟨_, h⟩
            · have := h rfl; rw [hr] at this; cases this
            · rw [h]; exact List.mem_filter.mpr ⟨hu, hte⟩
          | stop => cases hrun
          | att => rw [sync_running, hr] at hrun; cases hrun
          | scan => rw [sync_running, hr] at hrun; cases hrun
          | selfStop => cases hrun

/-! ## A stopped policy stores nothing -/

theorem stopped_step {g : Cfg} {s s' : State} {e : Ev} {p : Nat} (h : step g s e = .ok s') (he : e ≠ .start p)
    (hr : (s.pols p).running = false) :
    (s'.pols p).running = false ∧ ∀ r ∈ stores g s e, r.pol ≠ p := by
  constructor
  · have hP := step_pols g s s' e h p
    generalize s'.pols p = y at hP
    cases hP with
    | same _ _ h => rw [h.1]; exact hr
    | start => exact absurd rfl he
    | stop => rfl
    | att => rw [sync_running]; exact hr
    | scan => rw [sync_running]; exact hr
    | selfStop => rfl
  · intro r hm
    cases e with
    | storeOne i =>
      simp only [stores] at hm
      split at hm
      · split at hm
        · cases hm
        · next hr' =>
          intro hp
          split at hm
          · split at hm
            · simp only [List.mem_singleton] at hm
              subst hm
              dsimp only at hp
              subst hp
              exact hr' hr
            · cases hm
          · split at hm
            · simp only [List.mem_singleton] at hm
              subst hm
              dsimp only at hp
              subst hp
              exact hr' hr
            · cases hm
      · cases hm
    | _ => cases hm

theorem stopped_run (g : Cfg) (p : Nat) : ∀ es s s', run g s es = .ok s' → (∀ e ∈ es, e ≠ .start p) →
    (s.pols p).running = false → (s'.pols p).running = false ∧
      s'.log.filter (fun r => r.pol = p) = s.log.filter (fun r => r.pol = p) := by
  intro es
  induction es with
  | nil => intro s s' h _ hr; cases h; exact ⟨hr, rfl⟩
  | cons e es ih =>
    intro s s' h he hr
    simp only [run] at h
    split at h
    · next s1 h1 =>
      have ⟨a, b⟩ := stopped_step h1 (he e (by simp)) hr
      obtain ⟨c, d⟩ := ih s1 s' h (fun e h => he e (List.mem_cons_of_mem _ h)) a
      refine ⟨c, ?_⟩
      rw [d, step_log g s s1 e h1, List.filter_append]
      have : (stores g s e).filter (fun r => r.pol = p) = [] := by
        rw [List.filter_eq_nil_iff]
        intro r hr
        simpa using b r hr
      rw [this, List.append_nil]
    · cases h
    · cases h

end Verif.Pipeline
