import Verif.JobLabel.Spec

/-! # Proofs: the slots show the jobs -/

namespace Verif.JobLabel

/-- The slot `k` shows the job `j`. -/
structure Shows (s : Slots) (k : Nat) (j : Job) : Prop where
  id : s.ids k = j.id
  start : s.starts k = j.start
  fin : s.ends k = j.fin.getD 0
  app : ∀ a, j.app = some a → s.apps k = a

structure R (len : Nat) (s : Slots) (h : Hist) : Prop where
  size : s.len = len
  ids : s.jobs.map (·.1) = h.live.map (·.id)
  keys : (s.jobs.map (·.1)).Nodup
  nodup : (s.jobs.map (·.2) ++ s.free).Nodup
  lt : ∀ k ∈ s.jobs.map (·.2) ++ s.free, k < len
  count : s.jobs.length + s.free.length = len
  idx : 0 < len → s.tail < len ∧ s.next < len
  live : ∀ j ∈ h.live, j.fin = none ∧ ∃ k, (j.id, k) ∈ s.jobs ∧ Shows s k j
  unused : h.last = none → ∀ i, s.list i = -1
  last : ∀ j, h.last = some j → ∃ k : Nat, s.list s.tail = (k : Int) ∧ k < len ∧ Shows s k j ∧
    (j.fin = none → (j.id, k) ∈ s.jobs) ∧ (j.fin ≠ none → k ∈ s.free ∧ j.fin ≠ some 0)
  first : h.last = none → s.tail = 0 ∧ s.next = 0
  nxt : h.last ≠ none → s.next = if s.tail + 1 < s.len then s.tail + 1 else 0

theorem find_key : ∀ {l : List (Nat × Nat)} {id k : Nat}, (l.map (·.1)).Nodup →
    ((l.find? fun p => p.1 == id).map (·.2) = some k ↔ (id, k) ∈ l)
  | [], id, k, _ => by simp
  | p :: l, id, k, hn => by
    rw [List.map_cons, List.nodup_cons] at hn
    rw [List.find?_cons]
    by_cases e : p.1 = id
    · simp only [beq_iff_eq.2 e, Option.map_some, Option.some.injEq, List.mem_cons]
      constructor
      · intro hk; left; rw [← e, ← hk]
      · intro hk
        rcases hk with hk | hk
        · rw [← hk]
        · exact absurd (List.mem_map.2 ⟨_, hk, e.symm⟩) hn.1
    · have e' : (p.1 == id) = false := by simpa using e
      simp only [e', List.mem_cons]
      rw [find_key hn.2]
      constructor
      · exact .inr
      · intro hk
        rcases hk with hk | hk
        · exact absurd (by rw [← hk]) e
        · exact hk

theorem slotOf_iff {len : Nat} {s : Slots} {h : Hist} (r : R len s h) {id k : Nat} : slotOf s id = some k ↔ (id, k) ∈ s.jobs :=
  find_key r.keys

theorem slotOf_none {len : Nat} {s : Slots} {h : Hist} (r : R len s h) {id : Nat} :
    slotOf s id = none ↔ h.live.any (fun j => j.id == id) = false := by
  have h1 : slotOf s id = none ↔ id ∉ s.jobs.map (·.1) := by
    unfold slotOf
    rw [Option.map_eq_none_iff, List.find?_eq_none]
    constructor
    · intro hh hm
      obtain ⟨p, hp, e⟩ := List.mem_map.1 hm
      exact hh p hp (beq_iff_eq.2 e)
    · intro hh p hp e
      exact hh (List.mem_map.2 ⟨p, hp, beq_iff_eq.1 e⟩)
  rw [h1, r.ids]
  constructor
  · intro hh
    cases ha : h.live.any (fun j => j.id == id) with
    | false => rfl
    | true =>
      obtain ⟨j, hj, e⟩ := List.any_eq_true.1 ha
      exact absurd (List.mem_map.2 ⟨j, hj, beq_iff_eq.1 e⟩) hh
  · intro ha hm
    obtain ⟨j, hj, e⟩ := List.mem_map.1 hm
    have : h.live.any (fun j => j.id == id) = true := List.any_eq_true.2 ⟨j, hj, beq_iff_eq.2 e⟩
    rw [ha] at this; exact nomatch this

/-- Two jobs of one slot are one job. -/
theorem slot_inj : ∀ {l : List (Nat × Nat)} {p q : Nat × Nat}, (l.map (·.2)).Nodup → p ∈ l → q ∈ l → p.2 = q.2 → p = q
  | a :: l, p, q, hn, hp, hq, e => by
    rw [List.map_cons, List.nodup_cons] at hn
    rcases List.mem_cons.1 hp with e1 | h1
    · rcases List.mem_cons.1 hq with e2 | h2
      · rw [e1, e2]
      · exact absurd (List.mem_map.2 ⟨q, h2, by rw [← e, e1]⟩) hn.1
    · rcases List.mem_cons.1 hq with e2 | h2
      · exact absurd (List.mem_map.2 ⟨p, h1, by rw [e, e2]⟩) hn.1
      · exact slot_inj hn.2 h1 h2 e
  | [], p, q, _, hp, _, _ => by simp at hp

theorem key_inj : ∀ {l : List (Nat × Nat)} {p q : Nat × Nat}, (l.map (·.1)).Nodup → p ∈ l → q ∈ l → p.1 = q.1 → p = q
  | a :: l, p, q, hn, hp, hq, e => by
    rw [List.map_cons, List.nodup_cons] at hn
    rcases List.mem_cons.1 hp with e1 | h1
    · rcases List.mem_cons.1 hq with e2 | h2
      · rw [e1, e2]
      · exact absurd (List.mem_map.2 ⟨q, h2, by rw [← e, e1]⟩) hn.1
    · rcases List.mem_cons.1 hq with e2 | h2
      · exact absurd (List.mem_map.2 ⟨p, h1, by rw [e, e2]⟩) hn.1
      · exact key_inj hn.2 h1 h2 e
  | [], p, q, _, hp, _, _ => by simp at hp

theorem upd_same {α : Type} (f : Nat → α) (i : Nat) (v : α) : upd f i v i = v := by simp [upd]
theorem upd_other {α : Type} (f : Nat → α) {i j : Nat} (v : α) (h : j ≠ i) : upd f i v j = f j := by simp [upd, h]

theorem u32_id {v : Nat} (h : v < 2 ^ 32) : u32 v = v := Nat.mod_eq_of_lt h

theorem sx32_id {v : Nat} (h : v < 2 ^ 31) : sx32 v = v := by
  unfold sx32
  have : u32 v = v := u32_id (Nat.lt_trans h (by decide))
  rw [this, if_pos h]

theorem r_config (len : Nat) : R len (config zero len) .empty := by
  constructor
  · rfl
  · rfl
  · exact List.nodup_nil
  · show ([] ++ ([] ++ List.range len)).Nodup
    simp [List.nodup_range]
  · intro k hk
    have : k ∈ List.range len := by simpa [config, zero] using hk
    exact List.mem_range.1 this
  · simp [config, zero]
  · intro h; exact ⟨h, h⟩
  · intro j hj; exact nomatch hj
  · intro _ i; rfl
  · intro j hj; exact nomatch hj
  · intro _; exact ⟨rfl, rfl⟩
  · intro h; exact absurd rfl h

theorem r_init {len : Nat} {s : Slots} {h : Hist} (r : R len s h) (id ts : Nat) (hf : ts < 2 ^ 32) :
    ∃ s', recv s (.init id ts) = some s' ∧ R len s' (h.step len (.init id ts)) := by
  have hll : h.live.length = s.jobs.length := by
    have := congrArg List.length r.ids; simpa using this.symm
  simp only [recv, Hist.step]
  cases hs : slotOf s id with
  | some k =>
    have ha : h.live.any (fun j => j.id == id) = true := by
      cases ha : h.live.any (fun j => j.id == id) with
      | true => rfl
      | false => rw [(slotOf_none r).2 ha] at hs; exact nomatch hs
    simp only [ha, Bool.true_or, if_true]
    exact ⟨s, rfl, r⟩
  | none =>
    have ha := (slotOf_none r).1 hs
    simp only [ha, Bool.false_or]
    cases hfr : s.free with
    | nil =>
      have : len ≤ h.live.length := by have := r.count; rw [hfr] at this; simp at this; omega
      simp only [decide_eq_true this, if_true]
      exact ⟨s, rfl, r⟩
    | cons k free =>
      have hc : ¬ len ≤ h.live.length := by have := r.count; rw [hfr] at this; simp at this; omega
      have hpos : 0 < len := by omega
      simp only [decide_eq_false hc, Bool.false_eq_true, if_false]
      have hk : k < len := r.lt k (by rw [hfr]; simp)
      have hnx := (r.idx hpos).2
      unfold jobInit
      rw [if_pos ⟨by show k < s.len; rw [r.size]; exact hk, by show s.next < s.len; rw [r.size]; exact hnx⟩]
      have hn := r.nodup
      rw [hfr] at hn
      have hkj : ∀ p ∈ s.jobs, p.2 ≠ k := by
        intro p hp e
        have := (List.nodup_append.1 hn).2.2 p.2 (List.mem_map.2 ⟨p, hp, rfl⟩) k (by simp)
        exact this e
      have hid : id ∉ s.jobs.map (·.1) := by
        intro hm
        obtain ⟨p, hp, e⟩ := List.mem_map.1 hm
        have := (slotOf_iff r (id := id) (k := p.2)).2 (by rw [← e]; exact hp)
        rw [hs] at this; exact nomatch this
      have shows_new : Shows { s with
          free := free, jobs := s.jobs ++ [(id, k)], tail := s.next, list := upd s.list s.next (k : Int),
          next := if s.next + 1 < s.len then s.next + 1 else 0,
          ids := upd s.ids k id, starts := upd s.starts k (u32 ts), ends := upd s.ends k 0 } k ⟨id, ts, none, none⟩ :=
        ⟨upd_same .., by simp only [upd_same, u32_id hf], upd_same .., (fun a ha => nomatch ha)⟩
      refine ⟨_, rfl, ?_⟩
      constructor
      · exact r.size
      · simp only [List.map_append, r.ids, List.map_cons, List.map_nil]
      · simp only [List.map_append, List.map_cons, List.map_nil]
        rw [List.nodup_append]
        refine ⟨r.keys, by simp, ?_⟩
        intro a ha b hb e
        have : b = id := by simpa using hb
        exact hid (this ▸ e ▸ ha)
      · simp only [List.map_append, List.map_cons, List.map_nil, List.append_assoc, List.singleton_append]
        exact hn
      · intro j hj
        refine r.lt j ?_
        rw [hfr]
        simpa [List.append_assoc] using hj
      · have := r.count; rw [hfr] at this; simp at this ⊢; omega
      · intro _
        refine ⟨hnx, ?_⟩
        simp only
        split
        · rename_i h1; rw [← r.size]; exact h1
        · exact hpos
      · intro j hj
        rcases List.mem_append.1 hj with hj | hj
        · obtain ⟨h1, m, hm, sh⟩ := r.live j hj
          have hne : m ≠ k := hkj _ hm
          exact ⟨h1, m, List.mem_append_left _ hm, ⟨by simp only [upd_other _ _ hne]; exact sh.id,
            by simp only [upd_other _ _ hne]; exact sh.start, by simp only [upd_other _ _ hne]; exact sh.fin, sh.app⟩⟩
        · have hj := List.mem_singleton.1 hj
          subst hj
          exact ⟨rfl, k, List.mem_append_right _ (List.mem_singleton.2 rfl), shows_new⟩
      · intro e; exact nomatch e
      · intro j hj
        have hj := Option.some.inj hj
        subst hj
        exact ⟨k, upd_same .., hk, shows_new, fun _ => List.mem_append_right _ (List.mem_singleton.2 rfl), fun e => absurd rfl e⟩
      · intro e; exact nomatch e
      · intro _; rfl

theorem r_step {len : Nat} {s : Slots} {h : Hist} (r : R len s h) (id : Nat) (app : Option Nat) (hf : Fits (.step id app)) :
    ∃ s', recv s (.step id app) = some s' ∧ R len s' (h.step len (.step id app)) := by
  cases app with
  | none =>
    refine ⟨s, ?_, r⟩
    simp only [recv]
    split
    · rename_i h1; exact nomatch h1
    · rfl
  | some a =>
    have ha : a < 2 ^ 31 := hf
    simp only [recv, Hist.step]
    cases hs : slotOf s id with
    | none =>
      have hn := (slotOf_none r).1 hs
      have e1 : h.live.map (fun j => if j.id = id ∧ j.fin = none then { j with app := some a } else j) = h.live := by
        conv => rhs; rw [← List.map_id h.live]
        apply List.map_congr_left
        intro j hj
        have : ¬ j.id = id := by
          intro e
          have : h.live.any (fun j => j.id == id) = true := List.any_eq_true.2 ⟨j, hj, beq_iff_eq.2 e⟩
          rw [hn] at this; exact nomatch this
        rw [if_neg (fun e => this e.1)]; rfl
      have e2 : h.last.map (fun j => if j.id = id ∧ j.fin = none then { j with app := some a } else j) = h.last := by
        cases hl : h.last with
        | none => rfl
        | some j =>
          rw [Option.map_some]
          congr 1
          rw [if_neg]
          intro e
          obtain ⟨k, _, _, _, hk, _⟩ := r.last j hl
          have := (slotOf_iff r).2 (hk e.2)
          rw [e.1, hs] at this; exact nomatch this
      refine ⟨s, rfl, ?_⟩
      have : (⟨h.live.map (fun j => if j.id = id ∧ j.fin = none then { j with app := some a } else j),
          h.last.map (fun j => if j.id = id ∧ j.fin = none then { j with app := some a } else j)⟩ : Hist) = h := by rw [e1, e2]
      rw [this]
      exact r
    | some k =>
      have hm := (slotOf_iff r).1 hs
      have hk : k < len := r.lt k (List.mem_append_left _ (List.mem_map.2 ⟨_, hm, rfl⟩))
      have hk' : k < s.len := by rw [r.size]; exact hk
      simp only [if_pos hk']
      have hn2 := (List.nodup_append.1 r.nodup).1
      have hshow : ∀ (j : Job) (m : Nat), Shows s m j → (j.fin = none → (j.id, m) ∈ s.jobs) → (j.fin ≠ none → m ∈ s.free) →
          Shows { s with apps := upd s.apps k (sx32 a) } m (if j.id = id ∧ j.fin = none then { j with app := some a } else j) := by
        intro j m sh hin hout
        by_cases e : j.id = id ∧ j.fin = none
        · rw [if_pos e]
          have : (j.id, m) = (id, k) := key_inj r.keys (hin e.2) hm e.1
          have hmk : m = k := congrArg Prod.snd this
          refine ⟨sh.id, sh.start, sh.fin, fun b hb => ?_⟩
          have hb := Option.some.inj hb
          subst hb
          simp only [hmk, upd_same, sx32_id ha]
        · rw [if_neg e]
          have hmk : m ≠ k := by
            intro hmk
            by_cases hfin : j.fin = none
            · have := slot_inj hn2 (hin hfin) hm hmk
              exact e ⟨congrArg Prod.fst this, hfin⟩
            · exact (List.nodup_append.1 r.nodup).2.2 k (List.mem_map.2 ⟨_, hm, rfl⟩) m (hout hfin) hmk.symm
          refine ⟨sh.id, sh.start, sh.fin, fun b hb => ?_⟩
          simp only [upd_other _ _ hmk]
          exact sh.app b hb
      have hid : ∀ j : Job, (if j.id = id ∧ j.fin = none then { j with app := some a } else j).id = j.id := by
        intro j; split <;> rfl
      have hfi : ∀ j : Job, (if j.id = id ∧ j.fin = none then { j with app := some a } else j).fin = j.fin := by
        intro j; split <;> rfl
      refine ⟨_, rfl, ?_⟩
      constructor
      · exact r.size
      · rw [List.map_map]
        show s.jobs.map _ = _
        rw [r.ids]
        exact List.map_congr_left fun j _ => (hid j).symm
      · exact r.keys
      · exact r.nodup
      · exact r.lt
      · exact r.count
      · exact r.idx
      · intro j' hj'
        obtain ⟨j, hj, e⟩ := List.mem_map.1 hj'
        obtain ⟨h1, m, h2, h3⟩ := r.live j hj
        subst e
        refine ⟨by rw [hfi]; exact h1, m, by rw [hid]; exact h2, hshow j m h3 (fun _ => h2) (fun hne => absurd h1 hne)⟩
      · intro e i
        refine r.unused ?_ i
        cases hl : h.last with
        | none => rfl
        | some j => simp only [hl, Option.map_some] at e; exact nomatch e
      · intro j' hj'
        cases hl : h.last with
        | none => simp only [hl, Option.map_none] at hj'; exact nomatch hj'
        | some j =>
          simp only [hl, Option.map_some, Option.some.injEq] at hj'
          obtain ⟨m, h1, h2, h3, h4, h5⟩ := r.last j hl
          subst hj'
          exact ⟨m, h1, h2, hshow j m h3 h4 (fun hne => (h5 hne).1), by rw [hfi, hid]; exact h4, by rw [hfi]; exact h5⟩
      · intro e
        refine r.first ?_
        cases hl : h.last with
        | none => rfl
        | some j => simp only [hl, Option.map_some] at e; exact nomatch e
      · intro e
        refine r.nxt ?_
        intro hl
        apply e
        simp only [hl, Option.map_none]

theorem r_exit {len : Nat} {s : Slots} {h : Hist} (r : R len s h) (id ts : Nat) (hf : Fits (.exit id ts)) :
    ∃ s', recv s (.exit id ts) = some s' ∧ R len s' (h.step len (.exit id ts)) := by
  have hts : 0 < ts ∧ ts < 2 ^ 32 := hf
  simp only [recv, Hist.step]
  cases hs : slotOf s id with
  | none =>
    have hn := (slotOf_none r).1 hs
    have e1 : h.live.filter (fun j => j.id != id) = h.live := by
      rw [List.filter_eq_self]
      intro j hj
      have : ¬ j.id = id := by
        intro e
        have : h.live.any (fun j => j.id == id) = true := List.any_eq_true.2 ⟨j, hj, beq_iff_eq.2 e⟩
        rw [hn] at this; exact nomatch this
      simpa using this
    have e2 : h.last.map (fun j => if j.id = id ∧ j.fin = none then { j with fin := some ts } else j) = h.last := by
      cases hl : h.last with
      | none => rfl
      | some j =>
        rw [Option.map_some]
        congr 1
        rw [if_neg]
        intro e
        obtain ⟨k, _, _, _, hk, _⟩ := r.last j hl
        have := (slotOf_iff r).2 (hk e.2)
        rw [e.1, hs] at this; exact nomatch this
    refine ⟨s, rfl, ?_⟩
    have : (⟨h.live.filter (fun j => j.id != id),
        h.last.map (fun j => if j.id = id ∧ j.fin = none then { j with fin := some ts } else j)⟩ : Hist) = h := by rw [e1, e2]
    rw [this]
    exact r
  | some k =>
    have hm := (slotOf_iff r).1 hs
    have hk : k < len := r.lt k (List.mem_append_left _ (List.mem_map.2 ⟨_, hm, rfl⟩))
    have hk' : k < s.len := by rw [r.size]; exact hk
    simp only [if_pos hk']
    have hn2 := (List.nodup_append.1 r.nodup).1
    have hsub : (s.jobs.filter fun p => p.1 != id).map (·.2) = (s.jobs.map (·.2)).filter (fun m => m != k) := by
      rw [List.filter_map]
      congr 1
      apply List.filter_congr
      intro p hp
      by_cases e : p.1 = id
      · have := key_inj r.keys hp hm e
        rw [this]; simp
      · have : p.2 ≠ k := fun e2 => e (congrArg Prod.fst (slot_inj hn2 hp hm e2))
        show (p.1 != id) = (p.2 != k)
        rw [bne_iff_ne.2 e, bne_iff_ne.2 this]
    have hpk : ∀ p ∈ s.jobs, p.1 ≠ id → p.2 ≠ k := fun p hp hne e2 => hne (congrArg Prod.fst (slot_inj hn2 hp hm e2))
    refine ⟨_, rfl, ?_⟩
    constructor
    · exact r.size
    · show (s.jobs.filter fun p => p.1 != id).map (·.1) = _
      have h1 : (s.jobs.filter fun p => p.1 != id).map (·.1) = (s.jobs.map (·.1)).filter (fun m => m != id) := by
        rw [List.filter_map]; rfl
      have h2 : (h.live.filter fun j => j.id != id).map (·.id) = (h.live.map (·.id)).filter (fun m => m != id) := by
        rw [List.filter_map]; rfl
      rw [h1, h2, r.ids]
    · exact List.Nodup.sublist (List.Sublist.map _ List.filter_sublist) r.keys
    · show ((s.jobs.filter fun p => p.1 != id).map (·.2) ++ (s.free ++ [k])).Nodup
      rw [hsub]
      have hn := r.nodup
      rw [List.nodup_append] at hn ⊢
      refine ⟨List.Nodup.sublist List.filter_sublist hn.1, ?_, ?_⟩
      · rw [List.nodup_append]
        refine ⟨hn.2.1, by simp, ?_⟩
        intro a ha c hc e
        have : c = k := by simpa using hc
        exact hn.2.2 k (List.mem_map.2 ⟨_, hm, rfl⟩) a ha (by rw [e, this])
      · intro a ha c hc e
        have ha' := List.mem_filter.1 ha
        rcases List.mem_append.1 hc with hc | hc
        · exact hn.2.2 a ha'.1 c hc e
        · have : c = k := by simpa using hc
          have : ¬ a = k := by simpa using ha'.2
          exact this (by rw [e]; assumption)
    · intro m hmm
      refine r.lt m ?_
      have hmm : m ∈ (s.jobs.filter fun p => p.1 != id).map (·.2) ++ (s.free ++ [k]) := hmm
      rcases List.mem_append.1 hmm with h1 | h1
      · rw [hsub] at h1
        exact List.mem_append_left _ (List.mem_filter.1 h1).1
      · rcases List.mem_append.1 h1 with h1 | h1
        · exact List.mem_append_right _ h1
        · have : m = k := by simpa using h1
          exact List.mem_append_left _ (this ▸ List.mem_map.2 ⟨_, hm, rfl⟩)
    · have hl : (s.jobs.filter fun p => p.1 != id).length + 1 = s.jobs.length := by
        have : ∀ (l : List (Nat × Nat)), (l.map (·.1)).Nodup → (id, k) ∈ l → (l.filter fun p => p.1 != id).length + 1 = l.length := by
          intro l
          induction l with
          | nil => intro _ h; simp at h
          | cons p l ih =>
            intro hn hmem
            rw [List.map_cons, List.nodup_cons] at hn
            by_cases e : p.1 = id
            · have hnot : ∀ q ∈ l, (q.1 != id) = true := by
                intro q hq
                have : ¬ q.1 = id := fun e2 => hn.1 (List.mem_map.2 ⟨q, hq, by rw [e2, e]⟩)
                simpa using this
              rw [List.filter_cons_of_neg (by simp [e]), List.filter_eq_self.2 hnot]
              rfl
            · rw [List.filter_cons_of_pos (by simp [e])]
              rcases List.mem_cons.1 hmem with h1 | h1
              · exact absurd (by rw [← h1]) e
              · have := ih hn.2 h1
                simp only [List.length_cons]; omega
        exact this s.jobs r.keys hm
      have := r.count
      show (s.jobs.filter fun p => p.1 != id).length + (s.free ++ [k]).length = len
      simp; omega
    · exact r.idx
    · intro j hj
      have hj' := List.mem_filter.1 hj
      have hne : j.id ≠ id := by simpa using hj'.2
      obtain ⟨h1, m, h2, sh⟩ := r.live j hj'.1
      have hmk : m ≠ k := hpk _ h2 hne
      refine ⟨h1, m, List.mem_filter.2 ⟨h2, by simpa using hne⟩, sh.id, sh.start, ?_, sh.app⟩
      simp only [upd_other _ _ hmk]; exact sh.fin
    · intro e i
      refine r.unused ?_ i
      cases hl : h.last with
      | none => rfl
      | some j => simp only [hl, Option.map_some] at e; exact nomatch e
    · intro j' hj'
      cases hl : h.last with
      | none => simp only [hl, Option.map_none] at hj'; exact nomatch hj'
      | some j =>
        simp only [hl, Option.map_some, Option.some.injEq] at hj'
        obtain ⟨m, h1, h2, h3, h4, h5⟩ := r.last j hl
        by_cases e : j.id = id ∧ j.fin = none
        · rw [if_pos e] at hj'
          have hmk : m = k := congrArg Prod.snd (key_inj r.keys (h4 e.2) hm e.1)
          subst hj'
          refine ⟨m, h1, h2, ⟨h3.id, h3.start, ?_, h3.app⟩, (fun hh => nomatch hh), fun _ => ⟨?_, ?_⟩⟩
          · simp only [hmk, upd_same, u32_id hts.2]; rfl
          · rw [hmk]; exact List.mem_append_right _ (List.mem_singleton.2 rfl)
          · intro hh
            have : ts = 0 := Option.some.inj hh
            omega
        · rw [if_neg e] at hj'
          subst hj'
          have hmk : m ≠ k := by
            intro hmk
            by_cases hfin : j.fin = none
            · exact e ⟨congrArg Prod.fst (slot_inj hn2 (h4 hfin) hm hmk), hfin⟩
            · exact (List.nodup_append.1 r.nodup).2.2 k (List.mem_map.2 ⟨_, hm, rfl⟩) m (h5 hfin).1 hmk.symm
          refine ⟨m, h1, h2, ⟨h3.id, h3.start, ?_, h3.app⟩, fun hfin => ?_, fun hfin => ⟨List.mem_append_left _ (h5 hfin).1, (h5 hfin).2⟩⟩
          · simp only [upd_other _ _ hmk]; exact h3.fin
          · refine List.mem_filter.2 ⟨h4 hfin, ?_⟩
            have : ¬ j.id = id := fun e2 => e ⟨e2, hfin⟩
            simpa using this
    · intro e
      refine r.first ?_
      cases hl : h.last with
      | none => rfl
      | some j => simp only [hl, Option.map_some] at e; exact nomatch e
    · intro e
      refine r.nxt ?_
      intro hl
      apply e
      simp only [hl, Option.map_none]

theorem r_recv {len : Nat} {s : Slots} {h : Hist} (r : R len s h) (e : JEv) (hf : Fits e) :
    ∃ s', recv s e = some s' ∧ R len s' (h.step len e) := by
  cases e with
  | init id ts => exact r_init r id ts hf
  | step id app => exact r_step r id app hf
  | exit id ts => exact r_exit r id ts hf
  | task id => exact ⟨s, rfl, r⟩

theorem r_all {len : Nat} : ∀ (es : List JEv) {s : Slots} {h : Hist}, R len s h → (∀ e ∈ es, Fits e) →
    ∃ s', recvAll s es = some s' ∧ R len s' (es.foldl (Hist.step len) h)
  | [], s, h, r, _ => ⟨s, rfl, r⟩
  | e :: es, s, h, r, hf => by
    obtain ⟨s1, e1, r1⟩ := r_recv r e (hf e (List.mem_cons_self ..))
    obtain ⟨s2, e2, r2⟩ := r_all es r1 (fun d hd => hf d (List.mem_cons_of_mem _ hd))
    refine ⟨s2, ?_, r2⟩
    unfold recvAll
    rw [e1]
    exact e2

/-- What a sampler reads. -/
theorem r_label {len : Nat} {s : Slots} {h : Hist} (r : R len s h) (hpos : 0 < len) (t : Nat) :
    ∃ a, slotLabel (fun _ => s) t = some (h.label t, a) ∧
      (h.last.all (fun j => decide (¬ j.runs t)) = true → a = 0) ∧
      (∀ j a', h.last = some j → j.runs t → j.app = some a' → a = a') := by
  have ht := (r.idx hpos).1
  unfold slotLabel
  simp only [r.size, if_neg (Nat.not_le.2 ht)]
  unfold Hist.label
  cases hl : h.last with
  | none =>
    have := r.unused hl s.tail
    rw [this]
    refine ⟨0, rfl, fun _ => rfl, fun j a hj => nomatch hj⟩
  | some j =>
    obtain ⟨k, h1, h2, sh, _, h5⟩ := r.last j hl
    simp only [h1]
    rw [if_neg (by omega)]
    have hk : ((k : Int)).toNat = k := by simp
    simp only [hk, if_neg (Nat.not_le.2 h2)]
    have hin : inJob t (s.starts k) (s.ends k) = true ↔ j.runs t := by
      unfold inJob Job.runs
      rw [sh.start, sh.fin]
      cases hf : j.fin with
      | none => simp
      | some f =>
        have hf0 : f ≠ 0 := by
          have := (h5 (by rw [hf]; exact nofun)).2
          rw [hf] at this
          exact fun e => this (by rw [e])
        simp [hf0]
    by_cases hr : j.runs t
    · rw [if_pos (hin.2 hr), if_pos hr]
      refine ⟨s.apps k, by rw [sh.id], ?_, ?_⟩
      · intro hh; simp [hr] at hh
      · intro j' a' hj' _ ha'
        have hj' := Option.some.inj hj'
        subst hj'
        exact sh.app a' ha'
    · rw [if_neg (fun e => hr (hin.1 e)), if_neg hr]
      refine ⟨0, rfl, fun _ => rfl, ?_⟩
      intro j' a' hj' hr'
      have hj' := Option.some.inj hj'
      subst hj'
      exact absurd hr' hr

/-! ## What a history says -/

theorem exitOf_append (id : Nat) : ∀ (a b : List JEv), exitOf id (a ++ b) = (exitOf id a).or (exitOf id b)
  | [], b => by simp [exitOf]
  | e :: a, b => by
    have ih := exitOf_append id a b
    cases e with
    | exit i ts =>
      simp only [List.cons_append, exitOf]
      by_cases e : i = id
      · simp [e]
      · simp only [e, if_false]; exact ih
    | _ => exact ih

theorem live_running {cap : Nat} (es : List JEv) : ∀ j ∈ (Hist.all cap es).live, j.fin = none := by
  have : ∀ (es : List JEv) (h : Hist), (∀ j ∈ h.live, j.fin = none) → ∀ j ∈ (es.foldl (Hist.step cap) h).live, j.fin = none := by
    intro es
    induction es with
    | nil => intro h hh; exact hh
    | cons e es ih =>
      intro h hh
      apply ih
      intro j hj
      cases e with
      | init id ts =>
        simp only [Hist.step] at hj
        split at hj
        · exact hh j hj
        · rcases List.mem_append.1 hj with hj | hj
          · exact hh j hj
          · rw [List.mem_singleton.1 hj]
      | step id a =>
        cases a with
        | none => exact hh j hj
        | some a =>
          obtain ⟨i, hi, e⟩ := List.mem_map.1 hj
          rw [← e]; split
          · exact hh i hi
          · exact hh i hi
      | exit id ts => exact hh j (List.mem_filter.1 hj).1
      | task id => exact hh j hj
  exact this es .empty (fun j hj => nomatch hj)

/-- The job started last, in the events. -/
theorem last_events {cap : Nat} (es : List JEv) : ∀ j, (Hist.all cap es).last = some j →
    ∃ pre post, es = pre ++ .init j.id j.start :: post ∧ exitOf j.id post = j.fin := by
  have : ∀ (es done : List JEv) (h : Hist),
      (∀ j, h.last = some j → ∃ pre post, done = pre ++ .init j.id j.start :: post ∧ exitOf j.id post = j.fin) →
      ∀ j, (es.foldl (Hist.step cap) h).last = some j →
        ∃ pre post, done ++ es = pre ++ .init j.id j.start :: post ∧ exitOf j.id post = j.fin := by
    intro es
    induction es with
    | nil => intro done h hh; rw [List.append_nil]; exact hh
    | cons e es ih =>
      intro done h hh
      have hd : done ++ e :: es = (done ++ [e]) ++ es := by simp
      rw [hd]
      apply ih
      intro j hj
      have keep : h.last = some j → exitOf j.id [e] = none → ∃ pre post, done ++ [e] = pre ++ .init j.id j.start :: post ∧ exitOf j.id post = j.fin := by
        intro hl hx
        obtain ⟨pre, post, h1, h2⟩ := hh j hl
        refine ⟨pre, post ++ [e], by rw [h1]; simp, ?_⟩
        rw [exitOf_append, hx, h2]; cases j.fin <;> rfl
      cases e with
      | init id ts =>
        simp only [Hist.step] at hj
        split at hj
        · exact keep hj rfl
        · have := Option.some.inj hj
          subst this
          exact ⟨done, [], rfl, rfl⟩
      | step id a =>
        cases a with
        | none => exact keep hj rfl
        | some a =>
          cases hl : h.last with
          | none => simp only [Hist.step, hl, Option.map_none] at hj; exact nomatch hj
          | some i =>
            simp only [Hist.step, hl, Option.map_some, Option.some.injEq] at hj
            obtain ⟨pre, post, h1, h2⟩ := hh i hl
            have e1 : j.id = i.id ∧ j.start = i.start ∧ j.fin = i.fin := by
              rw [← hj]; split <;> exact ⟨rfl, rfl, rfl⟩
            rw [e1.1, e1.2.1, e1.2.2]
            refine ⟨pre, post ++ [.step id (some a)], by rw [h1]; simp, ?_⟩
            rw [exitOf_append, h2]; cases i.fin <;> rfl
      | exit id ts =>
        cases hl : h.last with
        | none => simp only [Hist.step, hl, Option.map_none] at hj; exact nomatch hj
        | some i =>
          simp only [Hist.step, hl, Option.map_some, Option.some.injEq] at hj
          obtain ⟨pre, post, h1, h2⟩ := hh i hl
          by_cases e : i.id = id ∧ i.fin = none
          · rw [if_pos e] at hj
            subst hj
            refine ⟨pre, post ++ [.exit id ts], by rw [h1]; simp, ?_⟩
            show exitOf i.id _ = some ts
            rw [exitOf_append, h2, e.2]
            simp [exitOf, e.1]
          · rw [if_neg e] at hj
            subst hj
            refine ⟨pre, post ++ [.exit id ts], by rw [h1]; simp, ?_⟩
            rw [exitOf_append, h2]
            cases hf : i.fin with
            | some f => rfl
            | none =>
              have : ¬ id = i.id := fun e2 => e ⟨e2.symm, hf⟩
              simp [exitOf, this]
      | task id => exact keep hj rfl
  intro j hj
  have := this es [] .empty (fun j hj => nomatch hj) j hj
  simpa using this

/-- When no job starts later, the job started last is the last. -/
theorem last_after {cap : Nat} (post : List JEv) : ∀ (h : Hist) (j : Job), h.last = some j →
    (∀ id ts, JEv.init id ts ∉ post) →
    ∃ a, (post.foldl (Hist.step cap) h).last = some { j with fin := j.fin.or (exitOf j.id post), app := a } := by
  induction post with
  | nil => intro h j hl _; exact ⟨j.app, by simp [hl, exitOf]⟩
  | cons e post ih =>
    intro h j hl hn
    have hn' : ∀ id ts, JEv.init id ts ∉ post := fun id ts hm => hn id ts (List.mem_cons_of_mem _ hm)
    cases e with
    | init id ts => exact absurd (List.mem_cons_self ..) (hn id ts)
    | step id a =>
      cases a with
      | none => exact ih h j hl hn'
      | some a =>
        have hl' : (h.step cap (.step id (some a))).last = some (if j.id = id ∧ j.fin = none then { j with app := some a } else j) := by
          simp [Hist.step, hl]
        obtain ⟨b, hb⟩ := ih _ _ hl' hn'
        refine ⟨b, ?_⟩
        rw [List.foldl_cons, hb]
        split <;> rfl
    | exit id ts =>
      have hl' : (h.step cap (.exit id ts)).last = some (if j.id = id ∧ j.fin = none then { j with fin := some ts } else j) := by
        simp [Hist.step, hl]
      obtain ⟨b, hb⟩ := ih _ _ hl' hn'
      refine ⟨b, ?_⟩
      rw [List.foldl_cons, hb]
      by_cases e : j.id = id ∧ j.fin = none
      · rw [if_pos e]
        simp [exitOf, e.1, e.2]
      · rw [if_neg e]
        cases hf : j.fin with
        | some f => simp
        | none =>
          have : ¬ id = j.id := fun e2 => e ⟨e2.symm, hf⟩
          simp [exitOf, this]
    | task id => exact ih h j hl hn'

/-! ## Reading while an event is handled -/

theorem during_init {len : Nat} {s s' : Slots} {h : Hist} (r : R len s h) (hlen : 2 ≤ len) (id ts t c : Nat) (ht : ts ≤ t)
    (hf : ts < 2 ^ 32) (hs : recv s (.init id ts) = some s') :
    ∃ a, slotLabel (switch c s s') t = some (h.label t, a) ∨
      slotLabel (switch c s s') t = some ((h.step len (.init id ts)).label t, a) := by
  obtain ⟨s'', e, r'⟩ := r_init r id ts hf
  rw [hs] at e
  have e := Option.some.inj e
  subst e
  obtain ⟨a0, hb, _⟩ := r_label r (by omega) t
  obtain ⟨a1, ha, _⟩ := r_label r' (by omega) t
  simp only [recv] at hs
  split at hs
  · have := Option.some.inj hs; subst this
    have : switch c s s = fun _ => s := by funext k; simp [switch]
    rw [this]
    exact ⟨a0, .inl hb⟩
  · rename_i hnone
    split at hs
    · have := Option.some.inj hs; subst this
      have : switch c s s = fun _ => s := by funext k; simp [switch]
      rw [this]
      exact ⟨a0, .inl hb⟩
    · rename_i k free hfr
      unfold jobInit at hs
      split at hs
      · rename_i hk
        have hs := Option.some.inj hs
        have htail : s.tail < len := (r.idx (by omega)).1
        have hsz := r.size
        cases hl : h.last with
        | none =>
          obtain ⟨t0, n0⟩ := r.first hl
          have hun := r.unused hl
          have hneg : slotLabel (switch c s s') t = some (0, 0) ∨ slotLabel (switch c s s') t = slotLabel (fun _ => s') t := by
            by_cases hc : c ≤ 1
            · right
              have e1 : s'.tail = s.tail := by rw [← hs, t0]; exact n0
              unfold slotLabel switch
              have hc1 : ¬ 1 < c := by omega
              have hc2 : ¬ 2 < c := by omega
              have hc3 : ¬ 3 < c := by omega
              have hc4 : ¬ 4 < c := by omega
              have hc5 : ¬ 5 < c := by omega
              simp only [if_neg hc1, if_neg hc2, if_neg hc3, if_neg hc4, if_neg hc5]
              by_cases hc0 : 0 < c
              · simp only [if_pos hc0, e1]
              · simp only [if_neg hc0]
            · left
              unfold slotLabel switch
              have hc0 : 0 < c := by omega
              have hc1 : 1 < c := by omega
              simp only [if_pos hc0, if_pos hc1, hun, hsz, if_neg (Nat.not_le.2 htail)]
              rfl
          rcases hneg with e | e
          · refine ⟨0, .inl ?_⟩
            rw [e]; simp [Hist.label, hl]
          · exact ⟨a1, .inr (by rw [e, ha])⟩
        | some j =>
          obtain ⟨m, h1, h2, sh, _, h5⟩ := r.last j hl
          have hne : s.next ≠ s.tail := by
            rw [r.nxt (by rw [hl]; exact nofun)]
            split
            · omega
            · rename_i hh
              rw [hsz] at hh; omega
          have hlab' : (h.step len (.init id ts)).label t = id := by
            have hfree : h.live.length < len := by
              have hll : h.live.length = s.jobs.length := by
                have := congrArg List.length r.ids; simpa using this.symm
              have := r.count; rw [hfr] at this; simp at this; omega
            have hany := (slotOf_none r).1 hnone
            simp only [Hist.step, hany, Bool.false_or, decide_eq_false (Nat.not_le.2 hfree), Bool.false_eq_true, if_false, Hist.label]
            rw [if_pos ⟨ht, fun f hf => nomatch hf⟩]
          have hlist : s'.list s.tail = (m : Int) := by
            rw [← hs]; show upd s.list s.next _ s.tail = _
            rw [upd_other _ _ (fun e => hne e.symm)]; exact h1
          have hlen' : s'.len = len := r'.size
          by_cases hmk : m = k
          · have hids : s'.ids m = id := by rw [← hs, hmk]; exact upd_same ..
            have hst : s'.starts m = ts := by rw [← hs, hmk]; show upd _ _ _ _ = _; rw [upd_same, u32_id hf]
            have hen : s'.ends m = 0 := by rw [← hs, hmk]; exact upd_same ..
            rw [hlab']
            by_cases hc0 : 0 < c
            · have hm0 : ¬ ((m : Int) < 0) := by omega
              have hl1 : ¬ len ≤ s.tail := by omega
              have hl2 : ¬ len ≤ m := by omega
              have eq1 : slotLabel (switch c s s') t =
                  if inJob t ((switch c s s' 2).starts m) ((switch c s s' 3).ends m) then
                    some ((switch c s s' 4).ids m, (switch c s s' 5).apps m) else some (0, 0) := by
                have s0 : (switch c s s' 0).tail = s.tail := by simp [switch, hc0]
                have s1 : (switch c s s' 1).list s.tail = (m : Int) := by
                  unfold switch; split
                  · exact h1
                  · exact hlist
                have sl : ∀ i, (switch c s s' i).len = len := by
                  intro i; unfold switch; split
                  · exact hsz
                  · exact hlen'
                unfold slotLabel
                simp only [s0, s1, sl, if_neg hl1, if_neg hm0, Int.toNat_natCast, if_neg hl2]
              have hlab : h.label t = if inJob t (s.starts m) (s.ends m) then j.id else 0 := by
                have : inJob t (s.starts m) (s.ends m) = true ↔ j.runs t := by
                  unfold inJob Job.runs
                  rw [sh.start, sh.fin]
                  cases hf : j.fin with
                  | none => simp
                  | some f =>
                    have hf0 : f ≠ 0 := by
                      have := (h5 (by rw [hf]; exact nofun)).2
                      rw [hf] at this
                      exact fun e => this (by rw [e])
                    simp [hf0]
                simp only [Hist.label, hl, this]
              rw [eq1, hlab]
              have inA : inJob t ts 0 = true := by simp [inJob, ht]
              by_cases c3 : 3 < c
              · -- start and end are the old ones
                simp only [switch, show 2 < c by omega, show 3 < c by omega, if_true]
                by_cases hin : inJob t (s.starts m) (s.ends m) = true
                · simp only [hin, if_true]
                  by_cases c4 : 4 < c
                  · simp only [c4, if_true]
                    rw [sh.id]
                    exact ⟨_, .inl rfl⟩
                  · simp only [c4, if_false, hids]
                    exact ⟨_, .inr rfl⟩
                · simp only [hin]
                  exact ⟨0, .inl rfl⟩
              · have c4 : ¬ 4 < c := by omega
                by_cases c2 : 2 < c
                · simp only [switch, c2, c3, c4, if_true, if_false, hen, hids]
                  by_cases hst2 : s.starts m ≤ t
                  · have : inJob t (s.starts m) 0 = true := by simp [inJob, hst2]
                    rw [this]
                    exact ⟨_, .inr rfl⟩
                  · have e1 : inJob t (s.starts m) 0 = false := by simp [inJob, hst2]
                    have e2 : inJob t (s.starts m) (s.ends m) = false := by simp [inJob, hst2]
                    rw [e1, e2]
                    exact ⟨_, .inl rfl⟩
                · simp only [switch, c2, c3, c4, if_false, hen, hids, hst, inA, if_true]
                  exact ⟨_, .inr rfl⟩
            · have : switch c s s' = fun _ => s' := by funext i; have : ¬ i < c := by omega
                                                       simp [switch, this]
              rw [this, ha, hlab']
              exact ⟨a1, .inr rfl⟩
          · -- another slot: what is read is as before
            by_cases hc0 : 0 < c
            · have hids : s'.ids m = s.ids m := by rw [← hs]; exact upd_other _ _ hmk
              have hst : s'.starts m = s.starts m := by rw [← hs]; exact upd_other _ _ hmk
              have hen : s'.ends m = s.ends m := by rw [← hs]; exact upd_other _ _ hmk
              have hap : s'.apps m = s.apps m := by rw [← hs]
              have : slotLabel (switch c s s') t = slotLabel (fun _ => s) t := by
                have s0 : (switch c s s' 0).tail = s.tail := by simp [switch, hc0]
                have s1 : (switch c s s' 1).list s.tail = (m : Int) := by
                  unfold switch; split
                  · exact h1
                  · exact hlist
                have sl : ∀ i, (switch c s s' i).len = len := by
                  intro i; unfold switch; split
                  · exact hsz
                  · exact hlen'
                have sA : ∀ i, (switch c s s' i).starts m = s.starts m := by
                  intro i; unfold switch; split
                  · rfl
                  · exact hst
                have sE : ∀ i, (switch c s s' i).ends m = s.ends m := by
                  intro i; unfold switch; split
                  · rfl
                  · exact hen
                have sI : ∀ i, (switch c s s' i).ids m = s.ids m := by
                  intro i; unfold switch; split
                  · rfl
                  · exact hids
                have sP : ∀ i, (switch c s s' i).apps m = s.apps m := by
                  intro i; unfold switch; split
                  · rfl
                  · exact hap
                unfold slotLabel
                simp only [s0, s1, sl, h1, hsz, Int.toNat_natCast, sA, sE, sI, sP]
              exact ⟨a0, .inl (by rw [this, hb])⟩
            · have : switch c s s' = fun _ => s' := by funext i; have : ¬ i < c := by omega
                                                       simp [switch, this]
              rw [this, ha]
              exact ⟨a1, .inr rfl⟩
      · exact nomatch hs

theorem during_step {s s' : Slots} {id : Nat} {app : Option Nat} (t c : Nat) (hs : recv s (.step id app) = some s') :
    slotLabel (switch c s s') t = slotLabel (fun _ => s) t ∨ slotLabel (switch c s s') t = slotLabel (fun _ => s') t := by
  have hsame : s'.len = s.len ∧ s'.tail = s.tail ∧ s'.list = s.list ∧ s'.ids = s.ids ∧ s'.starts = s.starts ∧ s'.ends = s.ends := by
    simp only [recv] at hs
    split at hs
    · split at hs
      · have := Option.some.inj hs; rw [← this]; exact ⟨rfl, rfl, rfl, rfl, rfl, rfl⟩
      · exact nomatch hs
    · have := Option.some.inj hs; rw [← this]; exact ⟨rfl, rfl, rfl, rfl, rfl, rfl⟩
  obtain ⟨a1, a2, a3, a4, a5, a6⟩ := hsame
  have q1 : ∀ i, (switch c s s' i).len = s.len := by intro i; unfold switch; split <;> simp [*]
  have q2 : ∀ i, (switch c s s' i).tail = s.tail := by intro i; unfold switch; split <;> simp [*]
  have q3 : ∀ i, (switch c s s' i).list = s.list := by intro i; unfold switch; split <;> simp [*]
  have q4 : ∀ i, (switch c s s' i).ids = s.ids := by intro i; unfold switch; split <;> simp [*]
  have q5 : ∀ i, (switch c s s' i).starts = s.starts := by intro i; unfold switch; split <;> simp [*]
  have q6 : ∀ i, (switch c s s' i).ends = s.ends := by intro i; unfold switch; split <;> simp [*]
  by_cases hc : 5 < c
  · left
    have q7 : (switch c s s' 5).apps = s.apps := by simp [switch, hc]
    simp only [slotLabel, q1, q2, q3, q4, q5, q6, q7]
  · right
    have q7 : (switch c s s' 5).apps = s'.apps := by simp [switch, hc]
    simp only [slotLabel, q1, q2, q3, q4, q5, q6, q7, a1, a2, a3, a4, a5, a6]

theorem during_exit {s s' : Slots} {id ts : Nat} (t c : Nat) (hs : recv s (.exit id ts) = some s') :
    slotLabel (switch c s s') t = slotLabel (fun _ => s) t ∨ slotLabel (switch c s s') t = slotLabel (fun _ => s') t := by
  have hsame : s'.len = s.len ∧ s'.tail = s.tail ∧ s'.list = s.list ∧ s'.ids = s.ids ∧ s'.starts = s.starts ∧ s'.apps = s.apps := by
    simp only [recv] at hs
    split at hs
    · split at hs
      · have := Option.some.inj hs; rw [← this]; exact ⟨rfl, rfl, rfl, rfl, rfl, rfl⟩
      · exact nomatch hs
    · have := Option.some.inj hs; rw [← this]; exact ⟨rfl, rfl, rfl, rfl, rfl, rfl⟩
  obtain ⟨a1, a2, a3, a4, a5, a6⟩ := hsame
  have q1 : ∀ i, (switch c s s' i).len = s.len := by intro i; unfold switch; split <;> simp [*]
  have q2 : ∀ i, (switch c s s' i).tail = s.tail := by intro i; unfold switch; split <;> simp [*]
  have q3 : ∀ i, (switch c s s' i).list = s.list := by intro i; unfold switch; split <;> simp [*]
  have q4 : ∀ i, (switch c s s' i).ids = s.ids := by intro i; unfold switch; split <;> simp [*]
  have q5 : ∀ i, (switch c s s' i).starts = s.starts := by intro i; unfold switch; split <;> simp [*]
  have q6 : ∀ i, (switch c s s' i).apps = s.apps := by intro i; unfold switch; split <;> simp [*]
  by_cases hc : 3 < c
  · left
    have q7 : (switch c s s' 3).ends = s.ends := by simp [switch, hc]
    simp only [slotLabel, q1, q2, q3, q4, q5, q6, q7]
  · right
    have q7 : (switch c s s' 3).ends = s'.ends := by simp [switch, hc]
    simp only [slotLabel, q1, q2, q3, q4, q5, q6, q7, a1, a2, a3, a4, a5, a6]

end Verif.JobLabel
