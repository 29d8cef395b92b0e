import Verif.UpdSel.Proofs

/-! # Proofs: the invariant of the tasks -/

namespace Verif.UpdSel

def Cov (u : Upd) (h : Hint) : Prop := h = u.deflt.hint ∨ (⟨h, .started⟩ : Task) ∈ u.tasks

structure TOk (u : Upd) : Prop where
  dsmall : Small u.deflt.hint
  noauto : u.auto = false → u.tasks = []
  tdist : (u.tasks.map (·.hint)).Nodup
  tok : ∀ t ∈ u.tasks, Small t.hint ∧ t.hint ≠ u.deflt.hint ∧ t.hint.intrvl ≠ 0

theorem uniq_task {l : List Task} (h : (l.map (·.hint)).Nodup) : ∀ {x y : Task}, x ∈ l → y ∈ l → x.hint = y.hint → x = y := by
  induction l with
  | nil => intro P Q hP; simp at hP
  | cons a l ih =>
    simp only [List.map_cons, List.nodup_cons, List.mem_map, not_exists, not_and] at h
    intro P Q hP hQ e
    rcases List.mem_cons.1 hP with e1 | hP' <;> rcases List.mem_cons.1 hQ with e2 | hQ'
    · rw [e1, e2]
    · subst e1; exact absurd e.symm (h.1 Q hQ')
    · subst e2; exact absurd e (h.1 P hP')
    · exact ih h.2 hP' hQ' e

theorem startTask_hint (t : Task) : (startTask t).hint = t.hint := by
  unfold startTask; split <;> rfl

theorem startTask_started (t : Task) (h : t.st = .started) : startTask t = t := by
  unfold startTask; rw [h]

theorem startTask_calm (t : Task) (h : t.st ≠ .stopping) : startTask t = ⟨t.hint, .started⟩ := by
  obtain ⟨h', s⟩ := t
  cases s
  · rfl
  · rfl
  · exact absurd rfl h

/-- What stays and what comes of a search for a task. -/
structure Upto (u u' : Upd) : Prop where
  prd : u'.prd = u.prd
  ms : u'.matches_ = u.matches_
  run : u'.running = u.running
  auto : u'.auto = u.auto
  deflt : u'.deflt = u.deflt
  ok : TOk u → TOk u'
  cov : ∀ h, Cov u h → Cov u' h
  calm : (∀ t ∈ u.tasks, t.st ≠ .stopping) → ∀ t ∈ u'.tasks, t.st ≠ .stopping

theorem Upto.refl (u : Upd) : Upto u u := ⟨rfl, rfl, rfl, rfl, rfl, id, fun _ => id, id⟩

theorem Upto.trans {a b c : Upd} (h : Upto a b) (k : Upto b c) : Upto a c :=
  ⟨k.prd.trans h.prd, k.ms.trans h.ms, k.run.trans h.run, k.auto.trans h.auto, k.deflt.trans h.deflt,
    fun x => k.ok (h.ok x), fun x y => k.cov x (h.cov x y), fun x => k.calm (h.calm x)⟩

theorem map_start_hints (h : Hint) (l : List Task) :
    (l.map fun t => if cmp t.hint h = 0 then startTask t else t).map (·.hint) = l.map (·.hint) := by
  rw [List.map_map]
  refine List.map_congr_left fun t _ => ?_
  simp only [Function.comp]
  split
  · exact startTask_hint t
  · rfl

theorem tasksUpdate_upto (u : Upd) (x : PSet) (hx : Small x.hint) : Upto u (tasksUpdate u x) := by
  unfold tasksUpdate
  by_cases h1 : u.auto = false
  · rw [if_pos h1]; exact .refl u
  rw [if_neg h1]
  by_cases h2 : x.hint.intrvl = 0
  · rw [if_pos h2]; exact .refl u
  rw [if_neg h2]
  by_cases h3 : u.deflt.hint = x.hint
  · rw [if_pos h3]; exact .refl u
  rw [if_neg h3]
  split
  · refine ⟨rfl, rfl, rfl, rfl, rfl, fun k => ⟨k.dsmall, fun e => absurd e h1, ?_, ?_⟩, ?_, ?_⟩
    · simp only [map_start_hints]; exact k.tdist
    · intro t ht
      obtain ⟨t0, ht0, rfl⟩ := List.mem_map.1 ht
      have := k.tok t0 ht0
      split
      · rw [startTask_hint]; exact this
      · exact this
    · rintro h (e | e)
      · exact .inl e
      · refine .inr (List.mem_map.2 ⟨_, e, ?_⟩)
        split
        · exact startTask_started _ rfl
        · rfl
    · intro k t ht
      obtain ⟨t0, ht0, rfl⟩ := List.mem_map.1 ht
      split
      · rw [startTask_calm t0 (k t0 ht0)]; exact fun h => nomatch h
      · exact k t0 ht0
  · rename_i hn
    refine ⟨rfl, rfl, rfl, rfl, rfl, fun k => ⟨k.dsmall, fun e => absurd e h1, ?_, ?_⟩, ?_, ?_⟩
    · simp only [List.map_append, List.map_cons, List.map_nil]
      refine List.nodup_append.2 ⟨k.tdist, by simp, ?_⟩
      intro a ha b hb hab
      obtain ⟨t, ht, rfl⟩ := List.mem_map.1 ha
      rw [List.mem_singleton] at hb
      refine hn (List.any_eq_true.2 ⟨t, ht, ?_⟩)
      rw [decide_eq_true_eq, cmp_small (k.tok t ht).1 hx, hab, hb]
    · intro t ht
      rcases List.mem_append.1 ht with ht | ht
      · exact k.tok t ht
      · rw [List.mem_singleton] at ht; subst ht
        exact ⟨hx, fun e => h3 e.symm, h2⟩
    · rintro h (e | e)
      · exact .inl e
      · exact .inr (List.mem_append_left _ e)
    · intro k t ht
      rcases List.mem_append.1 ht with ht | ht
      · exact k t ht
      · rw [List.mem_singleton] at ht; subst ht
        exact fun h => nomatch h

theorem tasksUpdate_cov (u : Upd) (x : PSet) (hx : Small x.hint) (k : TOk u) (hc : ∀ t ∈ u.tasks, t.st ≠ .stopping)
    (ha : u.auto = true) (hi : x.hint.intrvl ≠ 0) : Cov (tasksUpdate u x) x.hint := by
  unfold tasksUpdate
  rw [if_neg (by rw [ha]; exact fun h => nomatch h), if_neg hi]
  by_cases h3 : u.deflt.hint = x.hint
  · rw [if_pos h3]; exact .inl h3.symm
  rw [if_neg h3]
  split
  · rename_i hf
    obtain ⟨t, ht, e⟩ := List.any_eq_true.1 hf
    rw [decide_eq_true_eq] at e
    refine .inr (List.mem_map.2 ⟨t, ht, ?_⟩)
    rw [if_pos e, startTask_calm t (hc t ht), (cmp_small (k.tok t ht).1 hx).1 e]
  · exact .inr (List.mem_append_right _ (by simp))

theorem setTaskUpdate_upto (rx : Nat → Str → Bool) (u : Upd) (p : Str) (x : PSet) (hx : Small x.hint) :
    Upto u (setTaskUpdate rx u p x) := by
  unfold setTaskUpdate
  split
  · exact tasksUpdate_upto u x hx
  · exact .refl u

theorem setTaskUpdate_cov (rx : Nat → Str → Bool) (u : Upd) (p : Str) (x : PSet) (hx : Small x.hint) (k : TOk u)
    (hc : ∀ t ∈ u.tasks, t.st ≠ .stopping) (ha : u.auto = true) (hi : x.hint.intrvl ≠ 0) (hr : u.running = true)
    (hp : p ∈ u.prd) (hf : Fits rx u.matches_ x) : Cov (setTaskUpdate rx u p x) x.hint := by
  unfold setTaskUpdate
  rw [if_pos ⟨hr, hp, (matchAny_iff rx u x).2 hf⟩]
  exact tasksUpdate_cov u x hx k hc ha hi

theorem setTaskUpdate_tasks (rx : Nat → Str → Bool) (u : Upd) (p : Str) (x : PSet) (hr : u.running = false) :
    setTaskUpdate rx u p x = u := by
  unfold setTaskUpdate
  rw [if_neg]
  rw [hr]; exact fun h => nomatch h.1

/-! ### Tasks when the updater starts -/

def createSets (rx : Nat → Str → Bool) (u : Upd) (l : List PSet) : Upd :=
  l.foldl (fun u x => if matchAny rx u x then tasksUpdate u x else u) u

theorem createSets_upto (rx : Nat → Str → Bool) : ∀ (l : List PSet) (u : Upd), (∀ x ∈ l, Small x.hint) →
    Upto u (createSets rx u l)
  | [], u, _ => .refl u
  | x :: l, u, h => by
    refine Upto.trans ?_ (createSets_upto rx l _ fun y hy => h y (by simp [hy]))
    show Upto u (if matchAny rx u x then tasksUpdate u x else u)
    split
    · exact tasksUpdate_upto u x (h x (by simp))
    · exact .refl u

theorem createSets_cov (rx : Nat → Str → Bool) : ∀ (l : List PSet) (u : Upd), (∀ x ∈ l, Small x.hint) → TOk u →
    (∀ t ∈ u.tasks, t.st ≠ .stopping) → u.auto = true → ∀ x ∈ l, Fits rx u.matches_ x → x.hint.intrvl ≠ 0 →
    Cov (createSets rx u l) x.hint
  | [], _, _, _, _, _ => by intro x hx; simp at hx
  | y :: l, u, h, k, hc, ha => by
    intro x hx hf hi
    have s : Upto u (if matchAny rx u y then tasksUpdate u y else u) := by
      split
      · exact tasksUpdate_upto u y (h y (by simp))
      · exact .refl u
    rcases List.mem_cons.1 hx with rfl | hx'
    · refine (createSets_upto rx l _ fun y hy => h y (by simp [hy])).cov _ ?_
      show Cov (if matchAny rx u x then tasksUpdate u x else u) _
      rw [if_pos ((matchAny_iff rx u x).2 hf)]
      exact tasksUpdate_cov u x (h x (by simp)) k hc ha hi
    · exact createSets_cov rx l _ (fun y hy => h y (by simp [hy])) (s.ok k) (s.calm hc) (s.auto.trans ha) x hx'
        (by rw [s.ms]; exact hf) hi

def createPrds (rx : Nat → Str → Bool) (u : Upd) (l : List Prd) : Upd :=
  l.foldl (fun u p => createSets rx u p.sets) u

theorem createPrds_upto (rx : Nat → Str → Bool) : ∀ (l : List Prd) (u : Upd), (∀ P ∈ l, ∀ x ∈ P.sets, Small x.hint) →
    Upto u (createPrds rx u l)
  | [], u, _ => .refl u
  | P :: l, u, h =>
    Upto.trans (createSets_upto rx P.sets u (h P (by simp))) (createPrds_upto rx l _ fun y hy => h y (by simp [hy]))

theorem createPrds_cov (rx : Nat → Str → Bool) : ∀ (l : List Prd) (u : Upd), (∀ P ∈ l, ∀ x ∈ P.sets, Small x.hint) → TOk u →
    (∀ t ∈ u.tasks, t.st ≠ .stopping) → u.auto = true → ∀ P ∈ l, ∀ x ∈ P.sets, Fits rx u.matches_ x → x.hint.intrvl ≠ 0 →
    Cov (createPrds rx u l) x.hint
  | [], _, _, _, _, _ => by intro x hx; simp at hx
  | Q :: l, u, h, k, hc, ha => by
    intro P hP x hx hf hi
    have s := createSets_upto rx Q.sets u (h Q (by simp))
    rcases List.mem_cons.1 hP with rfl | hP'
    · exact (createPrds_upto rx l _ fun y hy => h y (by simp [hy])).cov _
        (createSets_cov rx P.sets u (h P (by simp)) k hc ha x hx hf hi)
    · exact createPrds_cov rx l _ (fun y hy => h y (by simp [hy])) (s.ok k) (s.calm hc) (s.auto.trans ha) P hP' x hx
        (by rw [s.ms]; exact hf) hi

theorem tasksCreate_eq (rx : Nat → Str → Bool) (prds : List Prd) (u : Upd) :
    tasksCreate rx prds u = createPrds rx u (prds.filter fun p => p.name ∈ u.prd) := rfl

/-! ### Changes of producers -/

/-- Nothing but what was there, but for states. -/
def Less (l' l : List Prd) : Prop :=
  ∀ P' ∈ l', ∀ x' ∈ P'.sets, ∃ P ∈ l, P.name = P'.name ∧ ∃ x ∈ P.sets, x.inst = x'.inst ∧ x.schema = x'.schema ∧ x.hint = x'.hint

structure POk (l : List Prd) : Prop where
  uniq : Uniq l
  down : ∀ P ∈ l, P.conn = false → P.sets = []
  small : ∀ P ∈ l, ∀ x ∈ P.sets, Small x.hint

theorem fits_congr {rx : Nat → Str → Bool} {ms : List Match} {x y : PSet} (h1 : x.inst = y.inst) (h2 : x.schema = y.schema)
    (h : Fits rx ms y) : Fits rx ms x := by
  unfold Fits at *; rw [h1, h2]; exact h

theorem setPrd_names (l : List Prd) (p : Str) (f : Prd → Prd) (hf : ∀ q, (f q).name = q.name) :
    (setPrd l p f).map (·.name) = l.map (·.name) := by
  unfold setPrd
  rw [List.map_map]
  refine List.map_congr_left fun q _ => ?_
  simp only [Function.comp]
  split
  · exact hf q
  · rfl

theorem mem_setPrd {l : List Prd} {p : Str} {f : Prd → Prd} {P' : Prd} (h : P' ∈ setPrd l p f) :
    ∃ P ∈ l, (P.name = p ∧ P' = f P) ∨ (P.name ≠ p ∧ P' = P) := by
  obtain ⟨P, hP, rfl⟩ := List.mem_map.1 h
  by_cases e : P.name = p
  · exact ⟨P, hP, .inl ⟨e, by rw [if_pos e]⟩⟩
  · exact ⟨P, hP, .inr ⟨e, by rw [if_neg e]⟩⟩

/-- A function on a producer that keeps the invariant. -/
theorem setPrd_ok {l : List Prd} (h : POk l) (p : Str) (f : Prd → Prd) (hn : ∀ q, (f q).name = q.name)
    (hi : ∀ q ∈ l, q.name = p → ((f q).sets.map (·.inst)).Nodup)
    (hd : ∀ q ∈ l, q.name = p → (f q).conn = false → (f q).sets = [])
    (hs : ∀ q ∈ l, q.name = p → ∀ x ∈ (f q).sets, Small x.hint) : POk (setPrd l p f) := by
  refine ⟨⟨by rw [setPrd_names l p f hn]; exact h.uniq.1, ?_⟩, ?_, ?_⟩
  · intro P' hP'
    obtain ⟨P, hP, ⟨e, rfl⟩ | ⟨_, rfl⟩⟩ := mem_setPrd hP'
    · exact hi P hP e
    · exact h.uniq.2 _ hP
  · intro P' hP'
    obtain ⟨P, hP, ⟨e, rfl⟩ | ⟨_, rfl⟩⟩ := mem_setPrd hP'
    · exact hd P hP e
    · exact h.down _ hP
  · intro P' hP'
    obtain ⟨P, hP, ⟨e, rfl⟩ | ⟨_, rfl⟩⟩ := mem_setPrd hP'
    · exact hs P hP e
    · exact h.small _ hP

theorem setPrd_less {l : List Prd} (p : Str) (f : Prd → Prd) (hn : ∀ q, (f q).name = q.name)
    (hs : ∀ q, ∀ x' ∈ (f q).sets, ∃ x ∈ q.sets, x.inst = x'.inst ∧ x.schema = x'.schema ∧ x.hint = x'.hint) :
    Less (setPrd l p f) l := by
  intro P' hP' x' hx'
  obtain ⟨P, hP, ⟨e, rfl⟩ | ⟨_, rfl⟩⟩ := mem_setPrd hP'
  · exact ⟨P, hP, (hn P).symm, hs P x' hx'⟩
  · exact ⟨_, hP, rfl, x', hx', rfl, rfl, rfl⟩

theorem map_inst (i : Str) (f : PSet → PSet) (hf : ∀ y, (f y).inst = y.inst) (l : List PSet) :
    (l.map fun x => if x.inst = i then f x else x).map (·.inst) = l.map (·.inst) := by
  rw [List.map_map]
  refine List.map_congr_left fun x _ => ?_
  simp only [Function.comp]
  split
  · exact hf x
  · rfl

theorem setSet_ok {l : List Prd} (h : POk l) (p i : Str) (f : PSet → PSet) (hn : ∀ y, (f y).inst = y.inst)
    (hs : ∀ y, Small y.hint → Small (f y).hint) : POk (setSet l p i f) := by
  refine setPrd_ok h p _ (fun _ => rfl) ?_ ?_ ?_
  · intro q hq _; simp only [map_inst i f hn]; exact h.uniq.2 q hq
  · intro q hq _ hc; simp only at hc ⊢; rw [h.down q hq hc]; rfl
  · intro q hq _ x hx
    obtain ⟨y, hy, rfl⟩ := List.mem_map.1 hx
    split
    · exact hs y (h.small q hq y hy)
    · exact h.small q hq y hy

theorem setSet_less {l : List Prd} (p i : Str) (f : PSet → PSet) (h1 : ∀ y, (f y).inst = y.inst)
    (h2 : ∀ y, (f y).schema = y.schema) (h3 : ∀ y, (f y).hint = y.hint) : Less (setSet l p i f) l := by
  refine setPrd_less p _ (fun _ => rfl) ?_
  intro q x' hx'
  obtain ⟨y, hy, rfl⟩ := List.mem_map.1 hx'
  refine ⟨y, hy, ?_⟩
  split
  · exact ⟨(h1 y).symm, (h2 y).symm, (h3 y).symm⟩
  · exact ⟨rfl, rfl, rfl⟩

theorem passAll_ok {l : List Prd} (h : POk l) (u : Upd) (s : PSet → Bool) : POk (passAll u s l) := by
  have hm : ∀ P' ∈ passAll u s l, ∃ P ∈ l, P'.name = P.name ∧ P'.conn = P.conn ∧
      (P'.sets = P.sets ∨ P'.sets = P.sets.map fun x => if s x then after x else x) := by
    intro P' hP'
    obtain ⟨P, hP, rfl⟩ := List.mem_map.1 hP'
    refine ⟨P, hP, ?_⟩
    split
    · exact ⟨rfl, rfl, .inr rfl⟩
    · exact ⟨rfl, rfl, .inl rfl⟩
  refine ⟨passPrds_uniq h.uniq, ?_, ?_⟩
  · intro P' hP' hc
    obtain ⟨P, hP, _, e2, e3⟩ := hm P' hP'
    have := h.down P hP (e2 ▸ hc)
    rcases e3 with e | e <;> rw [e, this]
    rfl
  · intro P' hP' x hx
    obtain ⟨P, hP, _, e2, e3⟩ := hm P' hP'
    rcases e3 with e | e
    · rw [e] at hx; exact h.small P hP x hx
    · rw [e] at hx
      obtain ⟨y, hy, rfl⟩ := List.mem_map.1 hx
      split
      · rw [after_hint]; exact h.small P hP y hy
      · exact h.small P hP y hy

theorem passAll_less (l : List Prd) (u : Upd) (s : PSet → Bool) : Less (passAll u s l) l := by
  intro P' hP' x' hx'
  obtain ⟨P, hP, rfl⟩ := List.mem_map.1 hP'
  refine ⟨P, hP, by split <;> rfl, ?_⟩
  split at hx'
  · obtain ⟨y, hy, rfl⟩ := List.mem_map.1 hx'
    refine ⟨y, hy, ?_⟩
    split
    · exact ⟨(after_inst y).symm, (after_schema y).symm, (after_hint y).symm⟩
    · exact ⟨rfl, rfl, rfl⟩
  · exact ⟨x', hx', rfl, rfl, rfl⟩

theorem newHint_small {o : Hint} {info : Option (Int × Option Int)} (h : Small o) (k : SmallInfo info) :
    Small (newHint o info) := by
  unfold newHint
  split
  · exact h
  · rename_i i oo
    split
    · exact h
    · obtain ⟨a, b, c⟩ := h
      cases oo with
      | none =>
        obtain ⟨d, e⟩ := k
        refine ⟨d, e, ?_⟩
        simp only [Option.getD_none, ne_eq, not_true_eq_false, if_false]
        exact c
      | some v =>
        obtain ⟨d, e, f, g⟩ := k
        have hne : (some v).getD offNone ≠ offNone := by
          simp only [Option.getD_some, offNone]; omega
        rw [if_pos hne]
        exact ⟨d, e, .inr ⟨f, g⟩⟩

theorem find_some {l : List Prd} {p i : Str} {x : PSet} (h : find l p i = some x) :
    ∃ P ∈ l, P.name = p ∧ x ∈ P.sets ∧ x.inst = i := by
  unfold find at h
  obtain ⟨P, hP, hx⟩ := Option.bind_eq_some_iff.1 h
  have a := List.find?_some hP
  have b := List.find?_some hx
  simp only [decide_eq_true_eq] at a b
  exact ⟨P, List.mem_of_find?_eq_some hP, a, List.mem_of_find?_eq_some hx, b⟩

/-! ### The invariant -/

structure InvS (w : W) : Prop where
  p : POk w.prds
  t : TOk w.u
  stopd : w.u.running = false → w.u.tasks = []
  dst : w.u.running = true → w.u.deflt.st = .started

def CovAll (rx : Nat → Str → Bool) (w : W) : Prop :=
  w.u.running = true → w.u.auto = true → ∀ P ∈ w.prds, P.name ∈ w.u.prd → ∀ x ∈ P.sets, Fits rx w.u.matches_ x →
    x.hint.intrvl ≠ 0 → Cov w.u x.hint

theorem covAll_less {rx : Nat → Str → Bool} {w : W} (h : CovAll rx w) {l : List Prd} (hl : Less l w.prds) :
    CovAll rx { w with prds := l } := by
  intro hr ha P' hP' hn x' hx' hf hi
  obtain ⟨P, hP, e, x, hx, e1, e2, e3⟩ := hl P' hP' x' hx'
  have := h hr ha P hP (by rw [e]; exact hn) x hx (fits_congr e1 e2 hf) (by rw [e3]; exact hi)
  rw [e3] at this
  exact this

theorem invS_prds {w : W} (h : InvS w) {l : List Prd} (hl : POk l) : InvS { w with prds := l } :=
  ⟨hl, h.t, h.stopd, h.dst⟩

theorem invS_upto {w : W} (h : InvS w) {l : List Prd} (hl : POk l) {p : Str} {x : PSet} {rx} (hx : Small x.hint) :
    InvS ⟨l, setTaskUpdate rx w.u p x⟩ := by
  have u := setTaskUpdate_upto rx w.u p x hx
  refine ⟨hl, u.ok h.t, ?_, ?_⟩
  · intro e
    have e' : w.u.running = false := u.run.symm.trans e
    rw [setTaskUpdate_tasks rx w.u p x e']
    exact h.stopd e'
  · intro e
    have := h.dst (u.run.symm.trans e)
    simp only [u.deflt]; exact this

/-- The tasks change only in state and number. -/
theorem invS_tasks {w : W} (h : InvS w) {l : List Prd} (hl : POk l) (ts : List Task)
    (he : w.u.tasks = [] → ts = []) (hd : (ts.map (·.hint)).Nodup) (hs : ∀ t ∈ ts, ∃ t0 ∈ w.u.tasks, t0.hint = t.hint) :
    InvS ⟨l, { w.u with tasks := ts }⟩ := by
  refine ⟨hl, ⟨h.t.dsmall, fun e => he (h.t.noauto e), hd, ?_⟩, fun e => he (h.stopd e), h.dst⟩
  intro t ht
  obtain ⟨t0, ht0, e⟩ := hs t ht
  have := h.t.tok t0 ht0
  rw [e] at this
  exact this

theorem map_hints (f : Task → Task) (hf : ∀ t, (f t).hint = t.hint) (l : List Task) :
    (l.map f).map (·.hint) = l.map (·.hint) := by
  rw [List.map_map]
  exact List.map_congr_left fun t _ => hf t

theorem invS_map {w : W} (h : InvS w) {l : List Prd} (hl : POk l) (f : Task → Task) (hf : ∀ t, (f t).hint = t.hint) :
    InvS ⟨l, { w.u with tasks := w.u.tasks.map f }⟩ := by
  refine invS_tasks h hl _ (fun e => by rw [e]; rfl) (by rw [map_hints f hf]; exact h.t.tdist) ?_
  intro t ht
  obtain ⟨t0, ht0, rfl⟩ := List.mem_map.1 ht
  exact ⟨t0, ht0, (hf t0).symm⟩

theorem small_zero : Small ⟨0, 0⟩ := ⟨by decide, by decide, .inr ⟨by decide, by decide⟩⟩

theorem invS_init : InvS init :=
  ⟨⟨⟨by simp [init], by simp [init]⟩, by simp [init], by simp [init]⟩,
    ⟨small_zero, fun _ => rfl, by simp [init], by simp [init]⟩, fun _ => rfl, by simp [init]⟩

theorem invS_step (rx : Nat → Str → Bool) {w : W} (h : InvS w) (e : Ev) (he : EvSmall e) : InvS (step rx w e).w := by
  cases e with
  | prdAdd r =>
    simp only [step]; split
    · exact h
    · exact ⟨h.p, ⟨h.t.dsmall, h.t.noauto, h.t.tdist, h.t.tok⟩, h.stopd, h.dst⟩
  | prdDel r =>
    simp only [step]; split
    · exact h
    · exact ⟨h.p, ⟨h.t.dsmall, h.t.noauto, h.t.tdist, h.t.tok⟩, h.stopd, h.dst⟩
  | matchAdd m =>
    simp only [step]; split
    · exact h
    · exact ⟨h.p, ⟨h.t.dsmall, h.t.noauto, h.t.tdist, h.t.tok⟩, h.stopd, h.dst⟩
  | matchDel m =>
    simp only [step]; split
    · exact h
    · split
      · exact ⟨h.p, ⟨h.t.dsmall, h.t.noauto, h.t.tdist, h.t.tok⟩, h.stopd, h.dst⟩
      · exact h
  | start auto hh =>
    simp only [step]; split
    · exact h
    · rename_i hr
      have hr' : w.u.running = false := by simpa using hr
      have ht := h.stopd hr'
      have k : TOk { w.u with running := true, auto := auto, deflt := ⟨hh, .started⟩ } :=
        ⟨he, fun _ => ht, by simp [ht], by simp [ht]⟩
      have u := createPrds_upto rx (w.prds.filter fun p => p.name ∈ w.u.prd)
        { w.u with running := true, auto := auto, deflt := ⟨hh, .started⟩ }
        (fun P hP => h.p.small P ((List.mem_filter.1 hP).1))
      refine ⟨h.p, u.ok k, ?_, ?_⟩
      · intro e; exact absurd (u.run.symm.trans e) (fun h => nomatch h)
      · intro _
        have := u.deflt
        show (createPrds rx _ _).deflt.st = _
        rw [this]
  | stop =>
    simp only [step]; split
    · exact ⟨h.p, ⟨h.t.dsmall, fun _ => rfl, by simp [ok], by simp [ok]⟩, fun _ => rfl, fun e => nomatch e⟩
    · exact h
  | prdNew p =>
    simp only [step]; split
    · exact h
    · rename_i hn
      refine invS_prds h ⟨⟨?_, ?_⟩, ?_, ?_⟩
      · simp only [List.map_append, List.map_cons, List.map_nil]
        refine List.nodup_append.2 ⟨h.p.uniq.1, by simp, ?_⟩
        intro a ha b hb hab
        rw [List.mem_singleton] at hb
        exact hn (by rw [← hb, ← hab]; exact ha)
      all_goals
        intro P hP
        rcases List.mem_append.1 hP with hP | hP
      · exact h.p.uniq.2 P hP
      · rw [List.mem_singleton] at hP; subst hP; simp
      · exact h.p.down P hP
      · rw [List.mem_singleton] at hP; subst hP; exact fun _ => rfl
      · exact h.p.small P hP
      · rw [List.mem_singleton] at hP; subst hP; simp
  | connect p =>
    exact invS_prds h (setPrd_ok h.p p _ (fun _ => rfl) (fun q hq _ => h.p.uniq.2 q hq) (fun q hq _ e => nomatch e)
      (fun q hq _ => h.p.small q hq))
  | disconnect p =>
    exact invS_prds h (setPrd_ok h.p p _ (fun _ => rfl) (fun q hq _ => by simp) (fun q hq _ e => rfl)
      (fun q hq _ => by simp))
  | dirAdd p i s info =>
    simp only [step]; split
    · rename_i hc
      obtain ⟨q, hq, hc⟩ := List.any_eq_true.1 hc
      simp only [Bool.and_eq_true, decide_eq_true_eq, Bool.not_eq_true', List.any_eq_false] at hc
      obtain ⟨⟨hqn, hqc⟩, hqi⟩ := hc
      have hx : Small (newHint ⟨0, 0⟩ info) := newHint_small small_zero he
      refine invS_upto (x := ⟨i, s, newHint ⟨0, 0⟩ info, .start⟩) h (setPrd_ok h.p p
        (fun q => { q with sets := q.sets ++ [⟨i, s, newHint ⟨0, 0⟩ info, .start⟩] }) (fun _ => rfl) ?_ ?_ ?_) hx
      · intro q' hq' e
        have := uniq_prd h.p.uniq.1 hq hq' (hqn.trans e.symm)
        subst this
        simp only [List.map_append, List.map_cons, List.map_nil]
        refine List.nodup_append.2 ⟨h.p.uniq.2 q hq, by simp, ?_⟩
        intro a ha b hb hab
        obtain ⟨y, hy, rfl⟩ := List.mem_map.1 ha
        rw [List.mem_singleton] at hb
        exact absurd (hab.trans hb) (by simpa using hqi y hy)
      · intro q' hq' e hcc
        have := uniq_prd h.p.uniq.1 hq hq' (hqn.trans e.symm)
        subst this
        simp only at hcc
        rw [hqc] at hcc; exact nomatch hcc
      · intro q' hq' e x hx'
        rcases List.mem_append.1 hx' with hx' | hx'
        · exact h.p.small q' hq' x hx'
        · rw [List.mem_singleton] at hx'; subst hx'; exact hx
    · exact h
  | dirUpd p i info =>
    simp only [step]; split
    · exact h
    · rename_i x hf
      obtain ⟨P, hP, _, hx, _⟩ := find_some hf
      have hs := newHint_small (h.p.small P hP x hx) he
      have hp := setSet_ok h.p p i (fun y => { y with hint := newHint y.hint info }) (fun _ => rfl)
        (fun y hy => newHint_small hy he)
      simp only [ok]
      split
      · exact invS_upto h hp hs
      · exact invS_prds h hp
  | dirDel p i =>
    refine invS_prds h (setPrd_ok h.p p _ (fun _ => rfl) ?_ ?_ ?_)
    · intro q hq _
      exact List.Nodup.sublist (List.Sublist.map _ List.filter_sublist) (h.p.uniq.2 q hq)
    · intro q hq _ hc
      simp only at hc ⊢
      rw [h.p.down q hq hc]; rfl
    · intro q hq _ x hx
      exact h.p.small q hq x ((List.mem_filter.1 hx).1)
  | lookupDone p i good =>
    simp only [step]; split
    · exact h
    · rename_i x hf
      obtain ⟨P, hP, _, hx, _⟩ := find_some hf
      split
      · split
        · exact invS_upto h (setSet_ok h.p p i _ (by intro y; rfl) (by intro y hy; exact hy)) (h.p.small P hP x hx)
        · exact invS_prds h (setSet_ok h.p p i _ (by intro y; rfl) (by intro y hy; exact hy))
      · exact h
  | ripen p i =>
    exact invS_prds h (setSet_ok h.p p i _ (by intro y; split <;> rfl) (by intro y hy; split <;> exact hy))
  | updateDone p i =>
    exact invS_prds h (setSet_ok h.p p i _ (by intro y; split <;> rfl) (by intro y hy; split <;> exact hy))
  | fire hh =>
    cases hh with
    | none =>
      simp only [step]; split
      · rw [passes_prds _ _ _ (sels_blind rx _ _)]
        exact invS_prds h (passAll_ok h.p _ _)
      · exact h
    | some t =>
      simp only [step]; split
      · rw [passes_prds _ _ _ (sels_blind rx _ _)]
        split
        · exact invS_map h (passAll_ok h.p _ _) _ (by intro t; split <;> rfl)
        · exact invS_prds h (passAll_ok h.p _ _)
      · exact h
  | fireEnd t =>
    exact invS_map h h.p _ (by intro t; split <;> rfl)
  | cleanup t =>
    simp only [step]; split
    · refine invS_tasks h h.p _ (fun e => by rw [e]; rfl) ?_ ?_
      · exact List.Nodup.sublist (List.Sublist.map _ List.filter_sublist) h.t.tdist
      · intro t ht; exact ⟨t, (List.mem_filter.1 ht).1, rfl⟩
    · exact h

theorem inTask_iff {w : W} (h : InvS w) {P : Prd} (hP : P ∈ w.prds) {x : PSet} (hx : x ∈ P.sets) {k : Hint} (hk : Small k) :
    inTask w.u k x = true ↔ Due w k x := by
  unfold inTask Due
  split
  · rename_i ha
    rw [Bool.and_eq_true, decide_eq_true_eq, decide_eq_true_eq, cmp_small (h.p.small P hP x hx) hk]
    exact ⟨fun h _ => h, fun h => h ha⟩
  · rename_i ha
    exact ⟨fun _ h => absurd h ha, fun _ => rfl⟩

theorem covAll_step (rx : Nat → Str → Bool) {w : W} (h : InvS w) (hc : CovAll rx w) (e : Ev) (he : EvSmall e)
    (hk : EvCalm w e) : CovAll rx (step rx w e).w := by
  cases e with
  | prdAdd r =>
    simp only [step]; split
    · exact hc
    · rename_i hr; intro hr'; exact absurd hr' hr
  | prdDel r =>
    simp only [step]; split
    · exact hc
    · rename_i hr; intro hr'; exact absurd hr' hr
  | matchAdd m =>
    simp only [step]; split
    · exact hc
    · rename_i hr; intro hr'; exact absurd hr' hr
  | matchDel m =>
    simp only [step]; split
    · exact hc
    · split
      · rename_i hr _; intro hr'; exact absurd hr' hr
      · exact hc
  | start auto hh =>
    simp only [step]; split
    · exact hc
    · rename_i hr
      have hr' : w.u.running = false := by simpa using hr
      have ht := h.stopd hr'
      have k : TOk { w.u with running := true, auto := auto, deflt := ⟨hh, .started⟩ } :=
        ⟨he, fun _ => ht, by simp [ht], by simp [ht]⟩
      have sm : ∀ P ∈ w.prds.filter (fun p => p.name ∈ w.u.prd), ∀ x ∈ P.sets, Small x.hint :=
        fun P hP => h.p.small P ((List.mem_filter.1 hP).1)
      have u := createPrds_upto rx (w.prds.filter fun p => p.name ∈ w.u.prd)
        { w.u with running := true, auto := auto, deflt := ⟨hh, .started⟩ } sm
      intro _ ha P hP hn x hx hf hi
      have hn' : P.name ∈ w.u.prd := by
        have : P.name ∈ (createPrds rx { w.u with running := true, auto := auto, deflt := ⟨hh, .started⟩ }
          (w.prds.filter fun p => p.name ∈ w.u.prd)).prd := hn
        rw [u.prd] at this; exact this
      have hf' : Fits rx w.u.matches_ x := by
        have : Fits rx (createPrds rx { w.u with running := true, auto := auto, deflt := ⟨hh, .started⟩ }
          (w.prds.filter fun p => p.name ∈ w.u.prd)).matches_ x := hf
        rw [u.ms] at this; exact this
      have ha' : auto = true := by
        have : (createPrds rx { w.u with running := true, auto := auto, deflt := ⟨hh, .started⟩ }
          (w.prds.filter fun p => p.name ∈ w.u.prd)).auto = true := ha
        rw [u.auto] at this; exact this
      exact createPrds_cov rx _ _ sm k (by simp [ht]) ha' P (List.mem_filter.2 ⟨hP, by simpa using hn'⟩) x hx hf' hi
  | stop =>
    simp only [step]; split
    · intro hr; exact nomatch hr
    · exact hc
  | prdNew p =>
    simp only [step]; split
    · exact hc
    · refine covAll_less hc ?_
      intro P hP x hx
      rcases List.mem_append.1 hP with hP | hP
      · exact ⟨P, hP, rfl, x, hx, rfl, rfl, rfl⟩
      · rw [List.mem_singleton] at hP; subst hP; simp at hx
  | connect p =>
    exact covAll_less hc (setPrd_less p _ (fun _ => rfl) fun q x hx => ⟨x, hx, rfl, rfl, rfl⟩)
  | disconnect p =>
    exact covAll_less hc (setPrd_less p _ (fun _ => rfl) fun q x hx => by simp at hx)
  | dirAdd p i s info =>
    simp only [step]; split
    · have hx : Small (newHint ⟨0, 0⟩ info) := newHint_small small_zero he
      have u := setTaskUpdate_upto rx w.u p ⟨i, s, newHint ⟨0, 0⟩ info, .start⟩ hx
      intro hr ha P' hP' hn y hy hf hi
      simp only [ok] at hr ha hP' hn hf ⊢
      rw [u.run] at hr; rw [u.auto] at ha; rw [u.prd] at hn; rw [u.ms] at hf
      obtain ⟨P, hP, ⟨e, rfl⟩ | ⟨_, rfl⟩⟩ := mem_setPrd hP'
      · rcases List.mem_append.1 hy with hy | hy
        · exact u.cov _ (hc hr ha P hP hn y hy hf hi)
        · rw [List.mem_singleton] at hy; subst hy
          exact setTaskUpdate_cov rx w.u p _ hx h.t hk ha hi hr (e ▸ hn) hf
      · exact u.cov _ (hc hr ha _ hP hn y hy hf hi)
    · exact hc
  | dirUpd p i info =>
    simp only [step]; split
    · exact hc
    · rename_i x hfd
      obtain ⟨P0, hP0, hn0, hx0, hi0⟩ := find_some hfd
      have hs := newHint_small (h.p.small P0 hP0 x hx0) he
      have u : Upto w.u (if cmp x.hint (newHint x.hint info) ≠ 0 then setTaskUpdate rx w.u p { x with hint := newHint x.hint info } else w.u) := by
        split
        · exact setTaskUpdate_upto rx w.u p _ hs
        · exact .refl _
      intro hr ha P' hP' hn y hy hf hi
      simp only [ok] at hr ha hP' hn hf ⊢
      rw [u.run] at hr; rw [u.auto] at ha; rw [u.prd] at hn; rw [u.ms] at hf
      obtain ⟨P, hP, ⟨e, rfl⟩ | ⟨_, rfl⟩⟩ := mem_setPrd hP'
      · obtain ⟨z, hz, rfl⟩ := List.mem_map.1 hy
        by_cases ez : z.inst = i
        · simp only [if_pos ez] at hf hi ⊢
          have e1 := uniq_prd h.p.uniq.1 hP hP0 (e.trans hn0.symm)
          subst e1
          have e2 := uniq_set (h.p.uniq.2 P hP) hz hx0 (ez.trans hi0.symm)
          subst e2
          by_cases hne : cmp z.hint (newHint z.hint info) = 0
          · rw [if_neg (fun h => h hne)]
            have e3 := (cmp_small (h.p.small P hP z hz) hs).1 hne
            rw [← e3] at hi ⊢
            exact hc hr ha P hP hn z hz hf hi
          · rw [if_pos hne]
            exact setTaskUpdate_cov rx w.u p { z with hint := newHint z.hint info } hs h.t hk ha hi hr (e ▸ hn) hf
        · simp only [if_neg ez] at hf hi ⊢
          exact u.cov _ (hc hr ha P hP hn z hz hf hi)
      · exact u.cov _ (hc hr ha _ hP hn y hy hf hi)
  | dirDel p i =>
    exact covAll_less hc (setPrd_less p _ (fun _ => rfl) fun q x hx => ⟨x, (List.mem_filter.1 hx).1, rfl, rfl, rfl⟩)
  | lookupDone p i good =>
    simp only [step]; split
    · exact hc
    · rename_i x hfd
      obtain ⟨P0, hP0, hn0, hx0, hi0⟩ := find_some hfd
      split
      · split
        · have u := setTaskUpdate_upto rx w.u p x (h.p.small P0 hP0 x hx0)
          have hl : Less (setSet w.prds p i fun y => { y with state := .ready false }) w.prds :=
            setSet_less p i _ (fun _ => rfl) (fun _ => rfl) (fun _ => rfl)
          intro hr ha P' hP' hn y hy hf hi
          simp only [ok] at hr ha hP' hn hf ⊢
          rw [u.run] at hr; rw [u.auto] at ha; rw [u.prd] at hn; rw [u.ms] at hf
          exact u.cov _ (covAll_less hc hl hr ha P' hP' hn y hy hf hi)
        · exact covAll_less hc (setSet_less p i _ (fun _ => rfl) (fun _ => rfl) (fun _ => rfl))
      · exact hc
  | ripen p i =>
    exact covAll_less hc (setSet_less p i _ (by intro y; split <;> rfl) (by intro y; split <;> rfl) (by intro y; split <;> rfl))
  | updateDone p i =>
    exact covAll_less hc (setSet_less p i _ (by intro y; split <;> rfl) (by intro y; split <;> rfl) (by intro y; split <;> rfl))
  | fire hh =>
    cases hh with
    | none =>
      simp only [step]; split
      · rw [passes_prds _ _ _ (sels_blind rx _ _)]
        exact covAll_less hc (passAll_less _ _ _)
      · exact hc
    | some t =>
      simp only [step]; split
      · rename_i hrt
        rw [passes_prds _ _ _ (sels_blind rx _ _)]
        have hl := covAll_less hc (passAll_less w.prds w.u (fun x => (sels rx w.u t).any fun s => s x))
        split
        · rename_i hz
          have hno := passes_zero (sels_blind rx w.u t) hz
          intro hr ha P' hP' hn y hy hf hi
          simp only at hr ha hP' hn hf ⊢
          have := hl hr ha P' hP' hn y hy hf hi
          rcases this with e | e
          · exact .inl e
          · refine .inr (List.mem_map.2 ⟨_, e, ?_⟩)
            rw [if_neg]
            intro et
            -- the set is of this task
            obtain ⟨P, hP, e0, x, hx, e1, e2, e3⟩ := passAll_less _ _ _ P' hP' y hy
            have hcn : P.conn = true := by
              cases hcc : P.conn with
              | true => rfl
              | false => rw [h.p.down P hP hcc] at hx; simp at hx
            have hts : Small t := (h.t.tok _ hrt.2).1
            have : ∃ s ∈ sels rx w.u t, s x = true := by
              refine (sels_any rx w.u t x).2 ⟨(inTask_iff h hP hx hts).2 fun _ => ?_, fits_congr e1 e2 hf⟩
              rw [e3]; exact ⟨hi, et⟩
            obtain ⟨s, hs, es⟩ := this
            rw [hno P hP (by rw [e0]; exact hn) hcn x hx s hs] at es
            exact nomatch es
        · exact hl
      · exact hc
  | fireEnd t =>
    intro hr ha P' hP' hn y hy hf hi
    rcases hc hr ha P' hP' hn y hy hf hi with e | e
    · exact .inl e
    · refine .inr (List.mem_map.2 ⟨_, e, ?_⟩)
      rw [if_neg]; exact fun h => nomatch h.2
  | cleanup t =>
    simp only [step]; split
    · intro hr ha P' hP' hn y hy hf hi
      rcases hc hr ha P' hP' hn y hy hf hi with e | e
      · exact .inl e
      · refine .inr (List.mem_filter.2 ⟨e, ?_⟩)
        simp
    · exact hc

theorem reachS_inv {rx : Nat → Str → Bool} {w : W} (h : ReachS rx w) : InvS w := by
  induction h with
  | init => exact invS_init
  | step _ he ih => exact invS_step rx ih _ he

theorem Reach.toS {rx : Nat → Str → Bool} {w : W} (h : Reach rx w) : ReachS rx w := by
  induction h with
  | init => exact .init
  | step _ he _ ih => exact .step ih he

theorem reach_cov {rx : Nat → Str → Bool} {w : W} (h : Reach rx w) : CovAll rx w := by
  induction h with
  | init => intro hr; exact nomatch hr
  | step hr he hk ih => exact covAll_step rx (reachS_inv hr.toS) ih _ he hk

end Verif.UpdSel
