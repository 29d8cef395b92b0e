import Verif.IoPool.Model

/-!
# C31: endpoints are spread over io threads
-/

namespace Verif.IoPool

/-- where the endpoints are, according to the history: specification of the state of the world -/
abbrev Loc := List (Nat × Nat)

/-- one call; the endpoint of an assignment is not on a thread, that of a removal is -/
inductive Step (max : Nat) : Pool × Loc → Pool × Loc → Prop
  | assignOk {p p' : Pool} {l : Loc} {ep id : Nat} (c : Bool) : (∀ q ∈ l, q.1 ≠ ep) →
    assign max c true p ep = (p', some id) → Step max (p, l) (p', (ep, id) :: l)
  | assignFail {p p' : Pool} {l : Loc} {ep : Nat} (c a : Bool) : (∀ q ∈ l, q.1 ≠ ep) →
    assign max c a p ep = (p', none) → Step max (p, l) (p', l)
  | remove {p : Pool} {l : Loc} {ep id : Nat} : (ep, id) ∈ l →
    Step max (p, l) (remove p id ep, l.erase (ep, id))

inductive Reach (max : Nat) : Pool × Loc → Prop
  | init : Reach max (init, [])
  | step {x y : Pool × Loc} : Reach max x → Step max x y → Reach max y

/-- the endpoints that the history puts on thread `id` -/
def onThread (l : Loc) (id : Nat) : List Nat := (l.filter fun q => q.2 = id).map (·.1)

structure Inv (max : Nat) (p : Pool) (l : Loc) : Prop where
  ids : (p.threads.map (·.id)).Nodup
  fresh : ∀ t ∈ p.threads, t.id < p.nextId
  cnt : p.n = p.threads.length
  lim : p.n ≤ max
  uniq : (l.map (·.1)).Nodup
  eps : ∀ t ∈ p.threads, t.eps = onThread l t.id ∧ t.nEp = t.eps.length
  known : ∀ q ∈ l, ∃ t ∈ p.threads, t.id = q.2

theorem onThread_cons (l : Loc) (ep id id' : Nat) :
    onThread ((ep, id) :: l) id' = if id = id' then ep :: onThread l id' else onThread l id' := by
  unfold onThread
  by_cases h : id = id' <;> simp [h]

theorem mem_onThread {l : Loc} {id e : Nat} : e ∈ onThread l id ↔ (e, id) ∈ l := by
  unfold onThread
  simp only [List.mem_map, List.mem_filter, decide_eq_true_eq]
  constructor
  · rintro ⟨⟨a, b⟩, ⟨h1, h2⟩, rfl⟩; simp only at h2; rw [← h2]; exact h1
  · intro h; exact ⟨(e, id), ⟨h, rfl⟩, rfl⟩

theorem onThread_erase {l : Loc} (hu : (l.map (·.1)).Nodup) {ep id : Nat} (hm : (ep, id) ∈ l) (id' : Nat) :
    onThread (l.erase (ep, id)) id' = if id = id' then (onThread l id').erase ep else onThread l id' := by
  induction l with
  | nil => cases hm
  | cons q qs ih =>
    obtain ⟨e, i⟩ := q
    simp only [List.map_cons, List.nodup_cons] at hu
    by_cases hq : (e, i) = (ep, id)
    · cases hq
      rw [List.erase_cons_head, onThread_cons]
      by_cases h : id = id'
      · rw [if_pos h, if_pos h, List.erase_cons_head]
      · rw [if_neg h, if_neg h]
    · have hm' : (ep, id) ∈ qs := by
        rcases List.mem_cons.1 hm with h | h
        · exact absurd h.symm hq
        · exact h
      have hne : e ≠ ep := by
        intro h
        apply hu.1
        rw [h]
        exact List.mem_map.2 ⟨_, hm', rfl⟩
      rw [List.erase_cons_tail (by simpa using hq), onThread_cons, onThread_cons, ih hu.2 hm']
      by_cases h1 : i = id'
      · rw [if_pos h1, if_pos h1]
        by_cases h2 : id = id'
        · rw [if_pos h2, if_pos h2, List.erase_cons_tail (by simpa using hne)]
        · rw [if_neg h2, if_neg h2]
      · rw [if_neg h1, if_neg h1]

theorem addEp_ids (ts : List Thr) (id ep : Nat) : (addEp ts id ep).map (·.id) = ts.map (·.id) := by
  rw [addEp, List.map_map]
  apply List.map_congr_left
  intro t _
  simp only [Function.comp]
  split <;> rfl

theorem delEp_ids (ts : List Thr) (id ep : Nat) : (delEp ts id ep).map (·.id) = ts.map (·.id) := by
  rw [delEp, List.map_map]
  apply List.map_congr_left
  intro t _
  simp only [Function.comp]
  split <;> rfl

theorem mem_ids {ts ts' : List Thr} (h : ts.map (·.id) = ts'.map (·.id)) {x : Nat}
    (hx : ∃ t ∈ ts, t.id = x) : ∃ t ∈ ts', t.id = x := by
  obtain ⟨t, h1, h2⟩ := hx
  have : x ∈ ts'.map (·.id) := by rw [← h]; exact List.mem_map.2 ⟨t, h1, h2⟩
  obtain ⟨t', q1, q2⟩ := List.mem_map.1 this
  exact ⟨t', q1, q2⟩

theorem inv_add {max : Nat} {p : Pool} {l : Loc} (h : Inv max p l) {id ep : Nat}
    (hid : ∃ t ∈ p.threads, t.id = id) (hf : ∀ q ∈ l, q.1 ≠ ep) :
    Inv max { p with threads := addEp p.threads id ep } ((ep, id) :: l) := by
  have he := addEp_ids p.threads id ep
  refine ⟨?_, ?_, ?_, h.lim, ?_, ?_, ?_⟩
  · show ((addEp p.threads id ep).map (·.id)).Nodup
    rw [he]; exact h.ids
  · intro t ht
    obtain ⟨t', q1, q2⟩ := mem_ids he ⟨t, ht, rfl⟩
    rw [← q2]; exact h.fresh t' q1
  · show p.n = (addEp p.threads id ep).length
    rw [h.cnt, addEp, List.length_map]
  · simp only [List.map_cons, List.nodup_cons]
    refine ⟨?_, h.uniq⟩
    intro hm
    obtain ⟨q, h1, h2⟩ := List.mem_map.1 hm
    exact hf q h1 h2
  · intro t ht
    obtain ⟨u, hu, rfl⟩ := List.mem_map.1 ht
    obtain ⟨h1, h2⟩ := h.eps u hu
    rw [onThread_cons]
    by_cases hc : u.id = id
    · rw [if_pos hc, if_pos hc.symm]
      refine ⟨by show ep :: u.eps = _; rw [h1], ?_⟩
      show u.nEp + 1 = (ep :: u.eps).length
      rw [h2, List.length_cons]
    · rw [if_neg hc, if_neg (fun h => hc h.symm)]
      exact ⟨h1, h2⟩
  · intro q hq
    refine mem_ids he.symm ?_
    rcases List.mem_cons.1 hq with rfl | hq
    · exact hid
    · exact h.known q hq

theorem inv_del {max : Nat} {p : Pool} {l : Loc} (h : Inv max p l) {id ep : Nat} (hm : (ep, id) ∈ l) :
    Inv max { p with threads := delEp p.threads id ep } (l.erase (ep, id)) := by
  have he := delEp_ids p.threads id ep
  refine ⟨?_, ?_, ?_, h.lim, ?_, ?_, ?_⟩
  · show ((delEp p.threads id ep).map (·.id)).Nodup
    rw [he]; exact h.ids
  · intro t ht
    obtain ⟨t', q1, q2⟩ := mem_ids he ⟨t, ht, rfl⟩
    rw [← q2]; exact h.fresh t' q1
  · show p.n = (delEp p.threads id ep).length
    rw [h.cnt, delEp, List.length_map]
  · exact h.uniq.sublist (List.Sublist.map _ List.erase_sublist)
  · intro t ht
    obtain ⟨u, hu, rfl⟩ := List.mem_map.1 ht
    obtain ⟨h1, h2⟩ := h.eps u hu
    rw [onThread_erase h.uniq hm]
    by_cases hc : u.id = id
    · rw [if_pos hc, if_pos hc.symm]
      refine ⟨by show u.eps.erase ep = _; rw [h1], ?_⟩
      show u.nEp - 1 = (u.eps.erase ep).length
      rw [h2, List.length_erase_of_mem]
      rw [h1, hc]; exact mem_onThread.2 hm
    · rw [if_neg hc, if_neg (fun h => hc h.symm)]
      exact ⟨h1, h2⟩
  · intro q hq
    exact mem_ids he.symm (h.known q (List.mem_of_mem_erase hq))

theorem minLoop_spec : ∀ (l : List Thr) (t : Option Nat) (m : Nat),
    (minLoop l t m = t ∧ ∀ x ∈ l, m ≤ x.nEp) ∨
    ∃ x ∈ l, minLoop l t m = some x.id ∧ x.nEp < m ∧ ∀ y ∈ l, x.nEp ≤ y.nEp := by
  intro l
  induction l with
  | nil => intro t m; exact Or.inl ⟨rfl, fun x hx => by cases hx⟩
  | cons a l ih =>
    intro t m
    rw [minLoop]
    by_cases h : a.nEp < m
    · rw [if_pos h]
      right
      rcases ih (some a.id) a.nEp with ⟨h1, h2⟩ | ⟨x, hx, h1, h2, h3⟩
      · refine ⟨a, List.mem_cons_self, h1, h, ?_⟩
        intro y hy
        rcases List.mem_cons.1 hy with rfl | hy
        · exact Nat.le_refl _
        · exact h2 y hy
      · refine ⟨x, List.mem_cons_of_mem _ hx, h1, by omega, ?_⟩
        intro y hy
        rcases List.mem_cons.1 hy with rfl | hy
        · omega
        · exact h3 y hy
    · rw [if_neg h]
      rcases ih t m with ⟨h1, h2⟩ | ⟨x, hx, h1, h2, h3⟩
      · left
        refine ⟨h1, ?_⟩
        intro y hy
        rcases List.mem_cons.1 hy with rfl | hy
        · omega
        · exact h2 y hy
      · right
        refine ⟨x, List.mem_cons_of_mem _ hx, h1, h2, ?_⟩
        intro y hy
        rcases List.mem_cons.1 hy with rfl | hy
        · omega
        · exact h3 y hy

theorem findIdle_some {l : List Thr} {id : Nat} (h : findIdle l = some id) :
    ∃ t ∈ l, t.id = id ∧ t.nEp = 0 := by
  rw [findIdle] at h
  cases hf : l.find? (fun t => t.nEp == 0) with
  | none => rw [hf] at h; cases h
  | some t =>
    rw [hf] at h
    cases h
    exact ⟨t, List.mem_of_find?_eq_some hf, rfl, by simpa using List.find?_some hf⟩

theorem findIdle_none {l : List Thr} (h : findIdle l = none) : ∀ t ∈ l, t.nEp ≠ 0 := by
  rw [findIdle, Option.map_eq_none_iff, List.find?_eq_none] at h
  intro t ht hz
  exact h t ht (by simp [hz])

/-- the pool after a new thread -/
def grow (p : Pool) : Pool := ⟨⟨p.nextId, 0, []⟩ :: p.threads, p.n + 1, p.nextId + 1⟩

theorem inv_grow {max : Nat} {p : Pool} {l : Loc} (h : Inv max p l) (hl : p.n < max) : Inv max (grow p) l := by
  refine ⟨?_, ?_, ?_, hl, h.uniq, ?_, ?_⟩
  · simp only [grow, List.map_cons, List.nodup_cons]
    refine ⟨?_, h.ids⟩
    intro hm
    obtain ⟨t, h1, h2⟩ := List.mem_map.1 hm
    have := h.fresh t h1
    omega
  · intro t ht
    show t.id < p.nextId + 1
    rcases List.mem_cons.1 ht with rfl | ht
    · show p.nextId < _; omega
    · have := h.fresh t ht; omega
  · show p.n + 1 = (_ :: p.threads).length
    rw [List.length_cons, h.cnt]
  · intro t ht
    rcases List.mem_cons.1 ht with rfl | ht
    · refine ⟨?_, rfl⟩
      symm
      show onThread l p.nextId = []
      rw [List.eq_nil_iff_forall_not_mem]
      intro e he
      obtain ⟨t, h1, h2⟩ := h.known _ (mem_onThread.1 he)
      have := h.fresh t h1
      simp only at h2
      omega
    · exact h.eps t ht
  · intro q hq
    obtain ⟨t, h1, h2⟩ := h.known q hq
    exact ⟨t, List.mem_cons_of_mem _ h1, h2⟩

/-- what `leastBusy` does: an idle thread, else a new one if allowed, else one of the least loaded -/
theorem leastBusy_cases (max : Nat) (c : Bool) (p : Pool) (ep : Nat) :
    (∃ t ∈ p.threads, t.nEp = 0 ∧
      leastBusy max c p ep = ({ p with threads := addEp p.threads t.id ep }, some t.id)) ∨
    ((∀ t ∈ p.threads, t.nEp ≠ 0) ∧ p.n < max ∧ c = true ∧
      leastBusy max c p ep = ({ grow p with threads := addEp (grow p).threads p.nextId ep }, some p.nextId)) ∨
    ((∀ t ∈ p.threads, t.nEp ≠ 0) ∧ ¬ (p.n < max ∧ c = true) ∧
      ((∃ t ∈ p.threads, (∀ u ∈ p.threads, t.nEp ≤ u.nEp) ∧
        leastBusy max c p ep = ({ p with threads := addEp p.threads t.id ep }, some t.id)) ∨
       ((∀ u ∈ p.threads, 0x7FFFFFFF ≤ u.nEp) ∧ leastBusy max c p ep = (p, none)))) := by
  rw [leastBusy]
  cases hf : findIdle p.threads with
  | some id =>
    left
    obtain ⟨t, h1, h2, h3⟩ := findIdle_some hf
    subst h2
    exact ⟨t, h1, h3, rfl⟩
  | none =>
    right
    have hn := findIdle_none hf
    by_cases hc : p.n < max ∧ c = true
    · left
      simp only [hc, and_self, if_true]
      exact ⟨hn, trivial, trivial, rfl⟩
    · right
      dsimp only
      rw [if_neg hc]
      refine ⟨hn, hc, ?_⟩
      rcases minLoop_spec p.threads none 0x7FFFFFFF with ⟨h1, h2⟩ | ⟨x, hx, h1, h2, h3⟩
      · right; rw [h1]; exact ⟨h2, rfl⟩
      · left; rw [h1]; exact ⟨x, hx, h3, rfl⟩

theorem inv_least {max : Nat} {p : Pool} {l : Loc} (h : Inv max p l) {ep : Nat} (c : Bool)
    (hf : ∀ q ∈ l, q.1 ≠ ep) :
    (∃ p' id, leastBusy max c p ep = (p', some id) ∧ Inv max p' ((ep, id) :: l)) ∨
    leastBusy max c p ep = (p, none) := by
  rcases leastBusy_cases max c p ep with ⟨t, ht, _, e⟩ | ⟨_, hl, _, e⟩ | ⟨_, _, ⟨t, ht, _, e⟩ | ⟨_, e⟩⟩
  · exact Or.inl ⟨_, _, e, inv_add h ⟨t, ht, rfl⟩ hf⟩
  · exact Or.inl ⟨_, _, e, inv_add (inv_grow h hl) ⟨_, List.mem_cons_self, rfl⟩ hf⟩
  · exact Or.inl ⟨_, _, e, inv_add h ⟨t, ht, rfl⟩ hf⟩
  · exact Or.inr e

theorem inv_step {max : Nat} {x y : Pool × Loc} (hs : Step max x y) (h : Inv max x.1 x.2) : Inv max y.1 y.2 := by
  cases hs with
  | @assignOk p p' l ep id c hf he =>
    rcases inv_least h c hf with ⟨p1, id1, e1, h1⟩ | e1
    · rw [assign, e1] at he
      simp only [if_true, Prod.mk.injEq, Option.some.injEq] at he
      obtain ⟨rfl, rfl⟩ := he
      exact h1
    · rw [assign, e1] at he
      simp at he
  | @assignFail p p' l ep c a hf he =>
    rcases inv_least h c hf with ⟨p1, id1, e1, h1⟩ | e1
    · rw [assign, e1] at he
      dsimp only at he
      cases a with
      | true => simp at he
      | false =>
        simp only [Bool.false_eq_true, if_false, Prod.mk.injEq, and_true] at he
        subst he
        have := inv_del h1 (id := id1) (ep := ep) List.mem_cons_self
        rwa [List.erase_cons_head] at this
    · rw [assign, e1] at he
      simp only [Prod.mk.injEq, and_true] at he
      subst he
      exact h
  | remove hm => exact inv_del h hm

theorem reach_inv {max : Nat} {x : Pool × Loc} (h : Reach max x) : Inv max x.1 x.2 := by
  induction h with
  | init =>
    exact ⟨List.nodup_nil, (fun t ht => by cases ht), rfl, Nat.zero_le _, List.nodup_nil,
      (fun t ht => by cases ht), fun q hq => by cases hq⟩
  | step _ hs ih => exact inv_step hs ih

/-! ## the property -/

/-- *Each endpoint is on exactly the thread it was assigned to*, threads never exceed the limit, and the
number of endpoints shown for a thread is right. -/
theorem pool_spec {max : Nat} {p : Pool} {l : Loc} (h : Reach max (p, l)) :
    p.threads.length ≤ max ∧ (p.threads.map (·.id)).Nodup ∧
    (∀ t ∈ p.threads, t.nEp = t.eps.length ∧ ∀ e, e ∈ t.eps ↔ (e, t.id) ∈ l) ∧
    (∀ q ∈ l, ∃ t ∈ p.threads, t.id = q.2 ∧ q.1 ∈ t.eps ∧ ∀ u ∈ p.threads, q.1 ∈ u.eps → u = t) := by
  have hi := reach_inv h
  simp only at hi
  have hmem : ∀ t ∈ p.threads, ∀ e, e ∈ t.eps ↔ (e, t.id) ∈ l := by
    intro t ht e
    rw [(hi.eps t ht).1]
    exact mem_onThread
  refine ⟨hi.cnt ▸ hi.lim, hi.ids, fun t ht => ⟨(hi.eps t ht).2, hmem t ht⟩, ?_⟩
  intro q hq
  obtain ⟨t, h1, h2⟩ := hi.known q hq
  refine ⟨t, h1, h2, (hmem t h1 q.1).2 (by rw [h2]; exact hq), ?_⟩
  intro u hu hqu
  have hql := (hmem u hu q.1).1 hqu
  -- the endpoint is in the history once
  have e1 : (q.1, u.id) = q := by
    have key : ∀ (l : Loc), (l.map (·.1)).Nodup → ∀ a b, a ∈ l → b ∈ l → a.1 = b.1 → a = b := by
      intro l
      induction l with
      | nil => intro _ a b ha; cases ha
      | cons c cs ih =>
        intro hn a b ha hb he
        simp only [List.map_cons, List.nodup_cons] at hn
        rcases List.mem_cons.1 ha with ha' | ha' <;> rcases List.mem_cons.1 hb with hb' | hb'
        · rw [ha', hb']
        · subst ha'; exact absurd (List.mem_map.2 ⟨b, hb', he.symm⟩) hn.1
        · subst hb'; exact absurd (List.mem_map.2 ⟨a, ha', he⟩) hn.1
        · exact ih hn.2 a b ha' hb' he
    exact key l hi.uniq _ _ hql hq rfl
  have e2 : u.id = t.id := by rw [h2, ← e1]
  -- thread ids are unique
  have key : ∀ (ts : List Thr), (ts.map (·.id)).Nodup → ∀ a b, a ∈ ts → b ∈ ts → a.id = b.id → a = b := by
    intro ts
    induction ts with
    | nil => intro _ a b ha; cases ha
    | cons c cs ih =>
      intro hn a b ha hb he
      simp only [List.map_cons, List.nodup_cons] at hn
      rcases List.mem_cons.1 ha with ha' | ha' <;> rcases List.mem_cons.1 hb with hb' | hb'
      · rw [ha', hb']
      · subst ha'; exact absurd (List.mem_map.2 ⟨b, hb', he.symm⟩) hn.1
      · subst hb'; exact absurd (List.mem_map.2 ⟨a, ha', he⟩) hn.1
      · exact ih hn.2 a b ha' hb' he
  exact key _ hi.ids u t hu h1 e2

/-- *Where a new endpoint goes*: to an idle thread if there is one; otherwise to a new thread if there
are fewer than the limit (and the transport can create one); otherwise to a thread with the fewest
endpoints. -/
theorem assign_choice {max : Nat} (c : Bool) {p p' : Pool} {ep id : Nat}
    (h : assign max c true p ep = (p', some id)) :
    (∃ t ∈ p.threads, t.id = id ∧ t.nEp = 0) ∨
    ((∀ t ∈ p.threads, t.nEp ≠ 0) ∧ p.n < max ∧ id = p.nextId ∧ p'.threads.length = p.threads.length + 1) ∨
    ((∀ t ∈ p.threads, t.nEp ≠ 0) ∧ (max ≤ p.n ∨ c = false) ∧
      ∃ t ∈ p.threads, t.id = id ∧ ∀ u ∈ p.threads, t.nEp ≤ u.nEp) := by
  rw [assign] at h
  rcases leastBusy_cases max c p ep with ⟨t, ht, h0, e⟩ | ⟨hn, hl, _, e⟩ | ⟨hn, hc, ⟨t, ht, h2, e⟩ | ⟨_, e⟩⟩
  all_goals rw [e] at h
  · simp only [if_true, Prod.mk.injEq, Option.some.injEq] at h
    exact Or.inl ⟨t, ht, h.2, h0⟩
  · simp only [if_true, Prod.mk.injEq, Option.some.injEq] at h
    refine Or.inr (Or.inl ⟨hn, hl, h.2.symm, ?_⟩)
    rw [← h.1]
    simp [addEp, grow]
  · simp only [if_true, Prod.mk.injEq, Option.some.injEq] at h
    refine Or.inr (Or.inr ⟨hn, ?_, t, ht, h.2, h2⟩)
    cases c with
    | false => exact Or.inr rfl
    | true => exact Or.inl (by simpa using hc)
  · simp at h

/-- `k` endpoints assigned, none released, nothing failing -/
def assignAll (max : Nat) : List Nat → Pool → Pool
  | [], p => p
  | e :: es, p => assignAll max es (assign max true true p e).1

/-- *Balance*: when no endpoint is released and the transport creates threads when asked, the loads of
any two threads differ by at most one, and there is only one endpoint per thread as long as there are
fewer threads than the limit. -/
theorem balanced {max : Nat} (hm : 0 < max) (es : List Nat) (hlen : es.length < 0x7FFFFFFF) :
    let p := assignAll max es init
    (∀ t ∈ p.threads, ∀ u ∈ p.threads, t.nEp ≤ u.nEp + 1) ∧
    (p.n < max → ∀ t ∈ p.threads, t.nEp = 1) ∧ (p.threads.map (·.nEp)).sum = es.length := by
  -- there is a level `m` such that every load is `m` or `m + 1`
  have key : ∀ (es : List Nat) (p : Pool) (m k : Nat), 1 ≤ m → (p.threads.map (·.id)).Nodup →
      (∀ t ∈ p.threads, t.id < p.nextId) →
      (∀ t ∈ p.threads, t.nEp = m ∨ t.nEp = m + 1) → (p.n < max → ∀ t ∈ p.threads, t.nEp = 1) →
      (p.n ≥ max → p.threads ≠ []) →
      (p.threads.map (·.nEp)).sum = k → k + es.length < 0x7FFFFFFF →
      ∃ m, (∀ t ∈ (assignAll max es p).threads, t.nEp = m ∨ t.nEp = m + 1) ∧
        ((assignAll max es p).n < max → ∀ t ∈ (assignAll max es p).threads, t.nEp = 1) ∧
        ((assignAll max es p).threads.map (·.nEp)).sum = k + es.length := by
    have sumAdd : ∀ (ts : List Thr) (id ep : Nat), (ts.map (·.id)).Nodup → (∃ t ∈ ts, t.id = id) →
        ((addEp ts id ep).map (·.nEp)).sum = (ts.map (·.nEp)).sum + 1 := by
      intro ts id ep
      induction ts with
      | nil => intro _ h; obtain ⟨t, ht, _⟩ := h; cases ht
      | cons a ts ih =>
        intro hn hex
        simp only [List.map_cons, List.nodup_cons] at hn
        have ecs : addEp (a :: ts) id ep = (if a.id = id then { a with nEp := a.nEp + 1, eps := ep :: a.eps } else a) ::
          addEp ts id ep := rfl
        rw [ecs]
        by_cases ha : a.id = id
        · have e0 : addEp ts id ep = ts := by
            rw [addEp]
            conv => rhs; rw [← List.map_id ts]
            apply List.map_congr_left
            intro t ht
            rw [if_neg]
            · rfl
            · intro he
              exact hn.1 (by rw [ha]; exact List.mem_map.2 ⟨t, ht, he⟩)
          rw [if_pos ha, e0]
          simp only [List.map_cons, List.sum_cons]
          omega
        · rw [if_neg ha]
          have hex' : ∃ t ∈ ts, t.id = id := by
            obtain ⟨t, ht, he⟩ := hex
            rcases List.mem_cons.1 ht with rfl | ht
            · exact absurd he ha
            · exact ⟨t, ht, he⟩
          simp only [List.map_cons, List.sum_cons, ih hn.2 hex']
          omega
    intro es
    induction es with
    | nil =>
      intro p m k _ _ _ hl h1 _ hs _
      exact ⟨m, hl, h1, by simpa [assignAll] using hs⟩
    | cons e es ih =>
      intro p m k hm1 hn hfr hl h1 hne hs hk
      rw [assignAll, assign]
      rw [List.length_cons] at hk ⊢
      rcases leastBusy_cases max true p e with ⟨t, ht, h0, ee⟩ | ⟨hnz, hlt, _, ee⟩ | ⟨hnz, hc, hr⟩
      · exfalso
        rcases hl t ht with h | h <;> omega
      · -- a new thread
        rw [ee]
        dsimp only
        rw [if_pos rfl]
        have hg : ((grow p).threads.map (·.id)).Nodup := by
          simp only [grow, List.map_cons, List.nodup_cons]
          refine ⟨?_, hn⟩
          intro hm
          obtain ⟨t, q1, q2⟩ := List.mem_map.1 hm
          have := hfr t q1
          omega
        have hall : ∀ t ∈ addEp (grow p).threads p.nextId e, t.nEp = 1 := by
          intro t ht
          obtain ⟨u, hu, rfl⟩ := List.mem_map.1 ht
          rcases List.mem_cons.1 hu with rfl | hu
          · rw [if_pos rfl]
          · have := hfr u hu
            rw [if_neg (by omega)]
            exact h1 hlt u hu
        obtain ⟨m', q1, q2, q3⟩ := ih { grow p with threads := addEp (grow p).threads p.nextId e } 1 (k + 1)
          (Nat.le_refl _) (by show ((addEp _ _ _).map (·.id)).Nodup; rw [addEp_ids]; exact hg)
          (by
            intro t ht
            obtain ⟨t', r1, r2⟩ := mem_ids (addEp_ids (grow p).threads p.nextId e) ⟨t, ht, rfl⟩
            rw [← r2]
            show t'.id < p.nextId + 1
            rcases List.mem_cons.1 r1 with rfl | r1
            · show p.nextId < _; omega
            · have := hfr t' r1; omega)
          (fun t ht => Or.inl (hall t ht)) (fun _ => hall)
          (fun _ => by simp [grow, addEp])
          (by
            show ((addEp (grow p).threads p.nextId e).map (·.nEp)).sum = k + 1
            rw [sumAdd _ _ _ hg ⟨_, List.mem_cons_self, rfl⟩]
            simp only [grow, List.map_cons, List.sum_cons]
            omega)
          (by omega)
        exact ⟨m', q1, q2, q3.trans (by omega)⟩
      · have hmax : ¬ p.n < max := fun h => hc ⟨h, rfl⟩
        rcases hr with ⟨t, ht, hmin, ee⟩ | ⟨hbig, ee⟩
        · rw [ee]
          dsimp only
          rw [if_pos rfl]
          have hids : ((addEp p.threads t.id e).map (·.id)).Nodup := by rw [addEp_ids]; exact hn
          have hfr' : ∀ u ∈ addEp p.threads t.id e, u.id < p.nextId := by
            intro u hu
            obtain ⟨u', r1, r2⟩ := mem_ids (addEp_ids p.threads t.id e) ⟨u, hu, rfl⟩
            rw [← r2]; exact hfr u' r1
          have hsum : ((addEp p.threads t.id e).map (·.nEp)).sum = k + 1 := by
            rw [sumAdd _ _ _ hn ⟨t, ht, rfl⟩]; omega
          have hne' : addEp p.threads t.id e ≠ [] := by
            intro h0
            rw [addEp, List.map_eq_nil_iff] at h0
            rw [h0] at ht; cases ht
          have same : ∀ u ∈ p.threads, u.id = t.id → u.nEp = t.nEp := by
            intro u hu he
            have key : ∀ (ts : List Thr), (ts.map (·.id)).Nodup → ∀ a b, a ∈ ts → b ∈ ts → a.id = b.id → a = b := by
              intro ts
              induction ts with
              | nil => intro _ a b ha; cases ha
              | cons c cs ih =>
                intro hn a b ha hb he
                simp only [List.map_cons, List.nodup_cons] at hn
                rcases List.mem_cons.1 ha with ha' | ha' <;> rcases List.mem_cons.1 hb with hb' | hb'
                · rw [ha', hb']
                · subst ha'; exact absurd (List.mem_map.2 ⟨b, hb', he.symm⟩) hn.1
                · subst hb'; exact absurd (List.mem_map.2 ⟨a, ha', he⟩) hn.1
                · exact ih hn.2 a b ha' hb' he
            rw [key _ hn u t hu ht he]
          by_cases htm : t.nEp = m
          · obtain ⟨m', q1, q2, q3⟩ := ih { p with threads := addEp p.threads t.id e } m (k + 1) hm1 hids hfr'
              (by
                intro u hu
                obtain ⟨v, hv, rfl⟩ := List.mem_map.1 hu
                by_cases hid : v.id = t.id
                · rw [if_pos hid]
                  right; show v.nEp + 1 = m + 1
                  rw [same v hv hid, htm]
                · rw [if_neg hid]; exact hl v hv)
              (fun h => absurd h hmax) (fun _ => hne') hsum (by omega)
            exact ⟨m', q1, q2, q3.trans (by omega)⟩
          · have htm' : t.nEp = m + 1 := by rcases hl t ht with h | h <;> omega
            have hall : ∀ v ∈ p.threads, v.nEp = m + 1 := by
              intro v hv
              have := hmin v hv
              rcases hl v hv with h | h <;> omega
            obtain ⟨m', q1, q2, q3⟩ := ih { p with threads := addEp p.threads t.id e } (m + 1) (k + 1)
              (by omega) hids hfr'
              (by
                intro u hu
                obtain ⟨v, hv, rfl⟩ := List.mem_map.1 hu
                by_cases hid : v.id = t.id
                · rw [if_pos hid]
                  right; show v.nEp + 1 = m + 1 + 1
                  rw [hall v hv]
                · rw [if_neg hid]; left; exact hall v hv)
              (fun h => absurd h hmax) (fun _ => hne') hsum (by omega)
            exact ⟨m', q1, q2, q3.trans (by omega)⟩
        · -- no thread has that many endpoints
          exfalso
          cases hts : p.threads with
          | nil => exact hne (by omega) hts
          | cons a ts =>
            have := hbig a (by rw [hts]; exact List.mem_cons_self)
            rw [hts] at hs
            simp only [List.map_cons, List.sum_cons] at hs
            omega
  obtain ⟨m, q1, q2, q3⟩ := key es init 1 0 (Nat.le_refl _) List.nodup_nil (fun t ht => by cases ht)
    (fun t ht => by cases ht) (fun _ t ht => by cases ht) (fun h => by simp [init] at h; omega) rfl
    (by omega)
  refine ⟨?_, q2, by omega⟩
  intro t ht u hu
  rcases q1 t ht with h | h <;> rcases q1 u hu with h' | h' <;> omega

example : ((assignAll 3 [1, 2, 3, 4, 5] init).threads.map (·.nEp)) = [2, 2, 1] := by decide

example : Reach 2 ((assign 2 true true init 7).1, [(7, 0)]) :=
  .step .init (.assignOk true (fun q hq => by cases hq) (by decide))

end Verif.IoPool
