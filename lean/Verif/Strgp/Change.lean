import Verif.Strgp.Proofs

/-! # How requests change the state -/

namespace Verif.Strgp

open Verif.SetOwner (Str)

inductive Change (n : Option Str) (pr : Bool) (nd : Prop) : State → State → Prop
  | refl (s : State) : Change n pr nd s s
  | set (s : State) (p p' : Pol) : find s p.name = some p → n = some p.name → p'.name = p.name → p'.plugin = p.plugin →
      (∀ i, p.store = some i → p'.store = some i) → (nd → p.metrics.Nodup → p'.metrics.Nodup) → Change n pr nd s (s.set p')
  | remove (s : State) (p : Pol) (i : Nat) : find s p.name = some p → n = some p.name → p.store = some i → loaded s i = true →
      Change n pr nd s { s.drop i with pols := s.pols.filter fun q => !(q.name == p.name) }
  | new (s : State) (p : Pol) (g : Plug) : find s p.name = none → n = some p.name → plugOf s p.plugin = some g →
      p.store = some g.id → p.metrics = [] → Change n pr nd s { s.hold g.id with pols := s.pols ++ [p] }
  | newPeer (s : State) (p : Pol) : pr = true → find s p.name = none → n = some p.name → p.metrics = [] →
      Change n pr nd s { s with pols := s.pols ++ [p] }
  | load (s : State) (m : Str) : plugOf s m = none → Change n pr nd s { s with plugs := ⟨s.next, m, 0⟩ :: s.plugs, next := s.next + 1 }
  | term (s : State) (m : Str) (g : Plug) : plugOf s m = some g → g.refs = 0 →
      Change n pr nd s { s with plugs := s.plugs.filter fun p => p.id ≠ g.id }
  | trans {s1 s2 s3 : State} : Change n pr nd s1 s2 → Change n pr nd s2 s3 → Change n pr nd s1 s3

/-- a change of the configuration keeps name, plugin, store, and distinct metrics -/
structure Mild (f : Pol → Except Nat Pol) : Prop where
  keep : ∀ p p', f p = .ok p' → p'.name = p.name ∧ p'.plugin = p.plugin ∧ p'.store = p.store ∧ (p.metrics.Nodup → p'.metrics.Nodup)

theorem mild_prdcrAdd (e : Env) (r : Str) : Mild (prdcrAdd e r) := by
  constructor; intro p p' h; unfold prdcrAdd at h; split at h
  · simp only [Except.ok.injEq] at h; subst h; exact ⟨rfl, rfl, rfl, id⟩
  · exact nomatch h

theorem mild_prdcrDel (r : Str) : Mild (prdcrDel r) := by
  constructor; intro p p' h; unfold prdcrDel at h; split at h
  · simp only [Except.ok.injEq] at h; subst h; exact ⟨rfl, rfl, rfl, id⟩
  · exact nomatch h

theorem mild_metricAdd (r : Str) : Mild (metricAdd r) := by
  constructor; intro p p' h; unfold metricAdd at h; split at h
  · exact nomatch h
  · rename_i hm
    simp only [Except.ok.injEq] at h; subst h
    refine ⟨rfl, rfl, rfl, fun hn => ?_⟩
    rw [List.nodup_append]
    refine ⟨hn, by simp, ?_⟩
    intro a ha b hb hab
    simp only [List.mem_singleton] at hb
    subst hb; subst hab; exact hm ha

theorem mild_metricDel (r : Str) : Mild (metricDel r) := by
  constructor; intro p p' h; unfold metricDel at h; split at h
  · simp only [Except.ok.injEq] at h; subst h; exact ⟨rfl, rfl, rfl, fun hn => hn.erase _⟩
  · exact nomatch h

theorem mild_start : Mild fun p => .ok { p with running := true, perm := p.perm ||| 512 } := by
  constructor; intro p p' h
  simp only [Except.ok.injEq] at h; subst h; exact ⟨rfl, rfl, rfl, id⟩

theorem config_change {e : Env} {s s' : State} {w : Who} {n : Str} {f : Pol → Except Nat Pol} {rc : Nat} {pr : Bool} {nd : Prop}
    (hf : Mild f) (h : config e s w n f = .ok s' rc) : Change (some n) pr nd s s' := by
  rcases config_ok h with ⟨rfl, _⟩ | ⟨p, hp, _, _, h⟩
  · exact .refl _
  · rcases h with ⟨rfl, _⟩ | ⟨p', h1, rfl, _⟩
    · exact .refl _
    · obtain ⟨a, b, c, d⟩ := hf.keep p p' h1
      have hn := (find_some hp).2
      subst hn
      exact .set s p p' hp rfl a b (fun i hi => by rw [c]; exact hi) (fun _ => d)

theorem del_change {e : Env} {s s' : State} {w : Who} {n : Str} {rc : Nat} {pr : Bool} {nd : Prop} (h : del e s w n = .ok s' rc) :
    Change (some n) pr nd s s' := by
  rcases del_ok h with ⟨rfl, _⟩ | ⟨p, i, hp, _, _, _, hs, hl, _, rfl⟩
  · exact .refl _
  · have hn := (find_some hp).2
    subst hn
    exact .remove s p i hp rfl hs hl

theorem refuse_change {e : Env} {s s' : State} {n : Option Str} {rc rc' : Nat} {pr : Bool} {nd : Prop}
    (h : refuse e s n rc = .ok s' rc') : Change n pr nd s s' := by
  rcases (refuse_ok h).2 with ⟨_, rfl⟩ | ⟨m, r, rfl, h2⟩
  · exact .refl _
  · exact del_change h2

theorem add_change {e : Env} {s s' : State} {w : Who} {a : Args} {rc : Nat} {pr : Bool} {nd : Prop} (h : add e s w a = .ok s' rc) :
    Change a.name pr nd s s' := by
  rcases add_cases e s w a with ⟨rc, _, ha⟩ | ⟨n, pl, c, sel, fl, g, hw, ha⟩
  · rw [ha] at h; exact refuse_change h
  · have hnew : Change a.name pr nd s { s.hold g.id with pols := s.pols ++ [made w a n pl c sel fl g] } :=
      .new s (made w a n pl c sel fl g) g hw.fresh hw.name hw.plug rfl rfl
    rcases ha with ⟨rc, _, _, ha⟩ | ⟨_, _, ha⟩
    · rw [ha] at h
      rw [hw.name] at hnew ⊢
      exact hnew.trans (refuse_change h)
    · rw [ha] at h
      simp only [Res.ok.injEq] at h
      rw [← h.1]; exact hnew

theorem part_change {e : Env} {s s' : State} {q : Peer} {x : Option Str} {f : Str → Pol → Except Nat Pol} {rc : Nat} {pr : Bool} {nd : Prop}
    (hf : ∀ x, Mild (f x)) (h : part e s q x f = .ok s' rc) : Change (some q.name) pr nd s s' := by
  unfold part at h
  split at h
  · simp only [Res.ok.injEq] at h; rw [← h.1]; exact .refl _
  · exact config_change (hf _) h

theorem peer_change {e : Env} {s s' : State} {q : Peer} {rc : Nat} {nd : Prop} (h : peer e s q = .ok s' rc) :
    Change (some q.name) true nd s s' := by
  unfold peer at h
  split at h
  · simp only [Res.ok.injEq] at h; rw [← h.1]; exact .refl _
  · rename_i s1 h1
    have c1 : Change (some q.name) true nd s s1 := by
      unfold peerNew at h1
      split at h1
      · simp only [Option.some.injEq] at h1; rw [← h1]; exact .refl _
      · rename_i hf
        split at h1
        · simp only [Option.some.injEq] at h1; rw [← h1]
          exact .newPeer s _ rfl hf rfl rfl
        · exact nomatch h1
    split at h
    · exact nomatch h
    · rename_i s2 rc2 h2
      have c2 : Change (some q.name) true nd s1 s2 := part_change (mild_prdcrAdd e) h2
      split at h
      · simp only [Res.ok.injEq] at h; rw [← h.1]; exact c1.trans c2
      · exact (c1.trans c2).trans (part_change mild_metricAdd h)

def Ev.isPeer : Ev → Bool
  | .peer _ => true
  | _ => false

def Ev.fine (ev : Ev) : Prop := ∀ n ms ok, ev = .opens n ms ok → ms.Nodup

theorem with1_ok {s s' : State} {n : Option Str} {f : Str → Res} {rc : Nat} (h : with1 s n f = .ok s' rc) :
    (s' = s ∧ rc = EINVAL ∧ n = none) ∨ ∃ m, n = some m ∧ f m = .ok s' rc := by
  unfold with1 at h
  split at h
  · simp only [Res.ok.injEq] at h; exact .inl ⟨h.1.symm, h.2.symm, rfl⟩
  · exact .inr ⟨_, rfl, h⟩

theorem with2_ok {s s' : State} {n m : Option Str} {f : Str → Str → Res} {rc : Nat} (h : with2 s n m f = .ok s' rc) :
    (s' = s ∧ rc = EINVAL ∧ (n = none ∨ m = none)) ∨ ∃ a b, n = some a ∧ m = some b ∧ f a b = .ok s' rc := by
  unfold with2 at h
  split at h
  · exact .inr ⟨_, _, rfl, rfl, h⟩
  · rename_i hh
    simp only [Res.ok.injEq] at h
    refine .inl ⟨h.1.symm, h.2.symm, ?_⟩
    cases n with
    | none => exact .inl rfl
    | some a => cases m with
      | none => exact .inr rfl
      | some b => exact absurd rfl (hh a b rfl)

theorem opens_ok {s s' : State} {n : Str} {ms : List Str} {ok : Bool} {rc : Nat} (h : opens s n ms ok = .ok s' rc) :
    s' = s ∨ ∃ p i, find s n = some p ∧ p.running = true ∧ p.decomp = none ∧
      (p.store = some i ∨ (p.store = none ∧ ∃ g, plugOf s p.plugin = some g ∧ i = g.id)) ∧
      s' = s.set { p with store := some i, opened := ok, metrics := if p.metrics = [] then ms else p.metrics } := by
  unfold opens at h
  split at h
  · simp only [Res.ok.injEq] at h; exact .inl h.1.symm
  · rename_i p hp
    split at h
    · rename_i hc
      simp only [Bool.and_eq_true, Option.isNone_iff_eq_none] at hc
      split at h
      · simp only [Res.ok.injEq] at h; exact .inl h.1.symm
      · rename_i i hi
        split at h
        · exact nomatch h
        · simp only [Res.ok.injEq] at h
          refine .inr ⟨p, i, hp, hc.1.1, hc.1.2, ?_, h.1.symm⟩
          split at hi
          · rename_i j hj
            exact .inl (by rw [hj, hi])
          · rename_i hj
            cases hg : plugOf s p.plugin with
            | none => rw [hg] at hi; exact nomatch hi
            | some g =>
              rw [hg] at hi
              exact .inr ⟨hj, g, rfl, by simpa using hi.symm⟩
    · simp only [Res.ok.injEq] at h; exact .inl h.1.symm

theorem step_change {e : Env} {s s' : State} {w : Who} {ev : Ev} {rc : Nat} (h : step e s w ev = .ok s' rc) :
    Change ev.target ev.isPeer ev.fine s s' := by
  cases ev with
  | add a => exact add_change h
  | prdcrAdd n r =>
    rcases with2_ok h with ⟨rfl, _⟩ | ⟨a, b, rfl, rfl, h⟩
    · exact .refl _
    · exact config_change (mild_prdcrAdd e _) h
  | prdcrDel n r =>
    rcases with2_ok h with ⟨rfl, _⟩ | ⟨a, b, rfl, rfl, h⟩
    · exact .refl _
    · exact config_change (mild_prdcrDel _) h
  | metricAdd n r =>
    rcases with2_ok h with ⟨rfl, _⟩ | ⟨a, b, rfl, rfl, h⟩
    · exact .refl _
    · exact config_change (mild_metricAdd _) h
  | metricDel n r =>
    rcases with2_ok h with ⟨rfl, _⟩ | ⟨a, b, rfl, rfl, h⟩
    · exact .refl _
    · exact config_change (mild_metricDel _) h
  | start n =>
    rcases with1_ok h with ⟨rfl, _⟩ | ⟨a, rfl, h⟩
    · exact .refl _
    · exact config_change mild_start h
  | stop n =>
    rcases with1_ok h with ⟨rfl, _⟩ | ⟨a, rfl, h⟩
    · exact .refl _
    · rcases stop_ok h with ⟨rfl, _⟩ | ⟨p, hp, _, _, _, rfl⟩
      · exact .refl _
      · have hn := (find_some hp).2
        subst hn
        exact .set s p _ hp rfl rfl rfl (fun i hi => hi) (fun _ => id)
  | del n =>
    rcases with1_ok h with ⟨rfl, _⟩ | ⟨a, rfl, h⟩
    · exact .refl _
    · exact del_change h
  | load n ok =>
    simp only [step, load] at h
    split at h
    · simp only [Res.ok.injEq] at h; rw [← h.1]; exact .refl _
    · rename_i hn
      split at h
      · simp only [Res.ok.injEq] at h; rw [← h.1]; exact .load s n (by simpa using hn)
      · simp only [Res.ok.injEq] at h; rw [← h.1]; exact .refl _
  | term n =>
    simp only [step, term] at h
    split at h
    · simp only [Res.ok.injEq] at h; rw [← h.1]; exact .refl _
    · rename_i g hg
      split at h
      · simp only [Res.ok.injEq] at h; rw [← h.1]; exact .refl _
      · rename_i hr
        simp only [Res.ok.injEq] at h; rw [← h.1]; exact .term s n g hg (by simpa using hr)
  | peer q => exact peer_change h
  | users n k =>
    simp only [step] at h
    split at h
    · simp only [Res.ok.injEq] at h; rw [← h.1]; exact .refl _
    · rename_i p hp
      simp only [Res.ok.injEq] at h; rw [← h.1]
      have hn := (find_some hp).2
      subst hn
      exact .set s p _ hp rfl rfl rfl (fun i hi => hi) (fun _ => id)
  | opens n ms ok =>
    rcases opens_ok h with rfl | ⟨p, i, hp, _, _, hi, rfl⟩
    · exact .refl _
    · have hn := (find_some hp).2
      subst hn
      refine .set s p _ hp rfl rfl rfl (fun j hj => ?_) (fun hf hm => ?_)
      · rcases hi with hi | ⟨hi, _⟩
        · rw [hj] at hi; exact hi.symm
        · rw [hj] at hi; exact nomatch hi
      · show (if p.metrics = [] then ms else p.metrics).Nodup
        split
        · exact hf _ _ _ rfl
        · exact hm
  | stores n =>
    simp only [step, stores] at h
    split at h
    · simp only [Res.ok.injEq] at h; rw [← h.1]; exact .refl _
    · split at h
      · exact nomatch h
      · simp only [Res.ok.injEq] at h; rw [← h.1]; exact .refl _

/-! ## what changes keep -/

theorem change_other {n : Option Str} {pr : Bool} {nd : Prop} {s s' : State} (h : Change n pr nd s s') {m : Str} (hm : n ≠ some m) :
    called s' m = called s m := by
  induction h with
  | refl => rfl
  | set s p p' _ hn hp =>
    rw [called_set, if_neg]
    rw [hp]; intro hh; rw [hh] at hm; exact hm hn
  | remove s p i _ hn =>
    exact called_filter _ _ _ fun hh => hm (by rw [hn, hh])
  | new s p g _ hn =>
    show (s.pols ++ [p]).filter _ = _
    have : ¬ p.name = m := fun hh => hm (by rw [hn, hh])
    simp [called, List.filter_append, this]
  | newPeer s p _ _ hn =>
    show (s.pols ++ [p]).filter _ = _
    have : ¬ p.name = m := fun hh => hm (by rw [hn, hh])
    simp [called, List.filter_append, this]
  | load => rfl
  | term => rfl
  | trans _ _ ih1 ih2 => rw [ih2, ih1]

/-- names are unique -/
def Unique (s : State) : Prop := ∀ m, (called s m).length ≤ 1

theorem change_unique {n : Option Str} {pr : Bool} {nd : Prop} {s s' : State} (h : Change n pr nd s s') (hu : Unique s) : Unique s' := by
  induction h with
  | refl => exact hu
  | set s p p' =>
    intro m
    rw [called_set]
    split
    · rw [List.length_map]; exact hu m
    · exact hu m
  | remove s p i =>
    intro m
    refine Nat.le_trans (List.Sublist.length_le ?_) (hu m)
    exact List.Sublist.filter _ List.filter_sublist
  | new s p g hf =>
    intro m
    show ((s.pols ++ [p]).filter _).length ≤ 1
    rw [List.filter_append, List.length_append]
    have h1 := hu m
    unfold called at h1
    by_cases hm : p.name = m
    · have := find_none.1 hf
      rw [hm] at this
      unfold called at this
      simp [this, hm]
    · simpa [hm] using h1
  | newPeer s p _ hf =>
    intro m
    show ((s.pols ++ [p]).filter _).length ≤ 1
    rw [List.filter_append, List.length_append]
    have h1 := hu m
    unfold called at h1
    by_cases hm : p.name = m
    · have := find_none.1 hf
      rw [hm] at this
      unfold called at this
      simp [this, hm]
    · simpa [hm] using h1
  | load => exact hu
  | term => exact hu
  | trans _ _ ih1 ih2 => exact ih2 (ih1 hu)

theorem unique_eq {s : State} (hu : Unique s) {p q : Pol} (hp : p ∈ s.pols) (hq : q ∈ s.pols) (h : p.name = q.name) : p = q := by
  have h1 : p ∈ called s q.name := mem_called.2 ⟨hp, h⟩
  have h2 : q ∈ called s q.name := mem_called.2 ⟨hq, rfl⟩
  have := hu q.name
  match hc : called s q.name, this with
  | [], _ => rw [hc] at h1; exact nomatch h1
  | [x], _ => rw [hc] at h1 h2; simp at h1 h2; rw [h1, h2]

/-- lists of metrics have no name twice -/
def Distinct (s : State) : Prop := ∀ p ∈ s.pols, p.metrics.Nodup

theorem mem_set {s : State} {p' q : Pol} (h : q ∈ (s.set p').pols) : (q = p' ∧ ∃ x ∈ s.pols, x.name = p'.name) ∨ (q ∈ s.pols ∧ q.name ≠ p'.name) := by
  simp only [State.set, List.mem_map] at h
  obtain ⟨x, hx, h⟩ := h
  split at h
  · rename_i hn
    exact .inl ⟨h.symm, x, hx, hn⟩
  · rename_i hn
    subst h; exact .inr ⟨hx, hn⟩

theorem change_distinct {n : Option Str} {pr : Bool} {nd : Prop} {s s' : State} (h : Change n pr nd s s') (hd : nd) (hu : Distinct s) :
    Distinct s' := by
  induction h with
  | refl => exact hu
  | set s p p' hf _ _ _ _ hm =>
    intro q hq
    rcases mem_set hq with ⟨rfl, _⟩ | ⟨hq, _⟩
    · exact hm hd (hu p (find_some hf).1)
    · exact hu q hq
  | remove s p i => exact fun q hq => hu q ((List.mem_filter.1 hq).1)
  | new s p g _ _ _ _ hm =>
    intro q hq
    rcases List.mem_append.1 hq with hq | hq
    · exact hu q hq
    · simp only [List.mem_singleton] at hq; subst hq; rw [hm]; exact List.nodup_nil
  | newPeer s p _ _ _ hm =>
    intro q hq
    rcases List.mem_append.1 hq with hq | hq
    · exact hu q hq
    · simp only [List.mem_singleton] at hq; subst hq; rw [hm]; exact List.nodup_nil
  | load => exact hu
  | term => exact hu
  | trans _ _ ih1 ih2 => exact ih2 (ih1 hu)

/-! ## plugins -/

structure Linked (s : State) : Prop where
  uniq : Unique s
  has : ∀ p ∈ s.pols, ∃ g ∈ s.plugs, p.store = some g.id ∧ g.name = p.plugin
  ids : ∀ g ∈ s.plugs, ∀ h ∈ s.plugs, g.id = h.id → g = h
  names : ∀ g ∈ s.plugs, ∀ h ∈ s.plugs, g.name = h.name → g = h
  fresh : ∀ g ∈ s.plugs, g.id < s.next
  count : ∀ g ∈ s.plugs, g.refs = (usedBy s g.name).length

theorem plugOf_some {s : State} {m : Str} {g : Plug} (h : plugOf s m = some g) : g ∈ s.plugs ∧ g.name = m := by
  unfold plugOf at h
  exact ⟨List.mem_of_find?_eq_some h, by simpa using List.find?_some h⟩

theorem plugOf_none {s : State} {m : Str} (h : plugOf s m = none) : ∀ g ∈ s.plugs, g.name ≠ m := by
  unfold plugOf at h
  intro g hg
  simpa using List.find?_eq_none.1 h g hg

theorem filter_map_length (l : List Pol) (f : Pol → Pol) (x : Str) (h : ∀ q ∈ l, (f q).plugin = q.plugin) :
    ((l.map f).filter fun p => p.plugin = x).length = (l.filter fun p => p.plugin = x).length := by
  induction l with
  | nil => rfl
  | cons q l ih =>
    have h1 := h q (by simp)
    have h2 := ih fun y hy => h y (by simp [hy])
    by_cases hq : q.plugin = x <;> simp [h1, hq, h2]

theorem filter_drop_length (l : List Pol) (n x : Str) :
    (l.filter fun p => p.plugin = x).length =
      ((l.filter fun q => !(q.name == n)).filter fun p => p.plugin = x).length +
      ((l.filter fun q => q.name = n).filter fun p => p.plugin = x).length := by
  induction l with
  | nil => rfl
  | cons q l ih =>
    by_cases hn : q.name = n <;> by_cases hx : q.plugin = x <;> simp [hn, hx, ih] <;> omega

theorem change_linked {n : Option Str} {nd : Prop} {pr : Bool} {s s' : State} (h : Change n pr nd s s') (hp : pr = false) (hl : Linked s) : Linked s' := by
  have hu := change_unique h hl.uniq
  induction h with
  | refl => exact hl
  | set s p p' hf _ hn hpl hst _ =>
    obtain ⟨hpm, _⟩ := find_some hf
    have same : ∀ q ∈ s.pols, q.name = p'.name → q = p := fun q hq h1 => unique_eq hl.uniq hq hpm (by rw [h1, hn])
    refine ⟨hu, ?_, hl.ids, hl.names, hl.fresh, ?_⟩
    · intro q hq
      rcases mem_set hq with ⟨rfl, x, hx, hxn⟩ | ⟨hq, _⟩
      · obtain ⟨g, hg, h1, h2⟩ := hl.has p hpm
        exact ⟨g, hg, hst _ h1, by rw [hpl]; exact h2⟩
      · exact hl.has q hq
    · intro g hg
      rw [hl.count g hg]
      unfold usedBy State.set
      rw [filter_map_length]
      intro q hq
      split
      · rename_i h1
        rw [same q hq h1]; exact hpl
      · rfl
  | remove s p i hf _ hs hld =>
    obtain ⟨hpm, _⟩ := find_some hf
    obtain ⟨gp, hgp, hgs, hgn⟩ := hl.has p hpm
    have hi : gp.id = i := by rw [hs] at hgs; simpa using hgs.symm
    have hc : called s p.name = [p] := by
      have h1 := find_called s p.name
      rw [hf] at h1
      have h2 := hl.uniq p.name
      match hcc : called s p.name, h2 with
      | [], _ => rw [hcc] at h1; exact nomatch h1
      | [x], _ => rw [hcc] at h1; simp at h1; rw [h1]
    refine ⟨hu, ?_, ?_, ?_, ?_, ?_⟩
    · intro q hq
      have hq' := (List.mem_filter.1 hq).1
      obtain ⟨g, hg, h1, h2⟩ := hl.has q hq'
      refine ⟨if g.id = i then { g with refs := g.refs - 1 } else g, List.mem_map.2 ⟨g, hg, rfl⟩, ?_, ?_⟩
      · rw [h1]; split <;> rfl
      · rw [← h2]; split <;> rfl
    · intro g hg h hh hid
      obtain ⟨g0, hg0, rfl⟩ := List.mem_map.1 hg
      obtain ⟨h0, hh0, rfl⟩ := List.mem_map.1 hh
      have : g0.id = h0.id := by
        have a : (if g0.id = i then { g0 with refs := g0.refs - 1 } else g0).id = g0.id := by split <;> rfl
        have b : (if h0.id = i then { h0 with refs := h0.refs - 1 } else h0).id = h0.id := by split <;> rfl
        rw [a, b] at hid; exact hid
      rw [hl.ids g0 hg0 h0 hh0 this]
    · intro g hg h hh hid
      obtain ⟨g0, hg0, rfl⟩ := List.mem_map.1 hg
      obtain ⟨h0, hh0, rfl⟩ := List.mem_map.1 hh
      have : g0.name = h0.name := by
        have a : (if g0.id = i then { g0 with refs := g0.refs - 1 } else g0).name = g0.name := by split <;> rfl
        have b : (if h0.id = i then { h0 with refs := h0.refs - 1 } else h0).name = h0.name := by split <;> rfl
        rw [a, b] at hid; exact hid
      rw [hl.names g0 hg0 h0 hh0 this]
    · intro g hg
      obtain ⟨g0, hg0, rfl⟩ := List.mem_map.1 hg
      have a : (if g0.id = i then { g0 with refs := g0.refs - 1 } else g0).id = g0.id := by split <;> rfl
      rw [a]; exact hl.fresh g0 hg0
    · intro g hg
      obtain ⟨g0, hg0, rfl⟩ := List.mem_map.1 hg
      have key := filter_drop_length s.pols p.name g0.name
      have h3 : s.pols.filter (fun q => q.name = p.name) = [p] := hc
      rw [h3] at key
      have h4 := hl.count g0 hg0
      unfold usedBy at h4
      by_cases hid : g0.id = i
      · have : g0 = gp := hl.ids g0 hg0 gp hgp (by rw [hid, hi])
        subst this
        have e1 : (if g0.id = i then { g0 with refs := g0.refs - 1 } else g0) = { g0 with refs := g0.refs - 1 } := if_pos hid
        rw [e1]
        simp only [usedBy]
        have h5 : ([p].filter fun q => q.plugin = g0.name).length = 1 := by simp [hgn]
        rw [h5] at key
        show g0.refs - 1 = _
        omega
      · have e1 : (if g0.id = i then { g0 with refs := g0.refs - 1 } else g0) = g0 := if_neg hid
        rw [e1]
        simp only [usedBy]
        have h5 : ([p].filter fun q => q.plugin = g0.name).length = 0 := by
          have : ¬ p.plugin = g0.name := by
            intro hh
            have := hl.names g0 hg0 gp hgp (by rw [← hh, hgn])
            exact hid (by rw [this, hi])
          simp [this]
        rw [h5] at key
        omega
  | new s p g hf _ hg hs _ =>
    obtain ⟨hgm, hgn⟩ := plugOf_some hg
    have ida : ∀ x : Plug, (if x.id = g.id then { x with refs := x.refs + 1 } else x).id = x.id := fun x => by split <;> rfl
    have nma : ∀ x : Plug, (if x.id = g.id then { x with refs := x.refs + 1 } else x).name = x.name := fun x => by split <;> rfl
    refine ⟨hu, ?_, ?_, ?_, ?_, ?_⟩
    · intro q hq
      rcases List.mem_append.1 hq with hq | hq
      · obtain ⟨g1, hg1, h1, h2⟩ := hl.has q hq
        exact ⟨_, List.mem_map.2 ⟨g1, hg1, rfl⟩, by rw [ida]; exact h1, by rw [nma]; exact h2⟩
      · simp only [List.mem_singleton] at hq
        subst hq
        exact ⟨_, List.mem_map.2 ⟨g, hgm, rfl⟩, by rw [ida]; exact hs, by rw [nma]; exact hgn⟩
    · intro a ha b hb hid
      obtain ⟨a0, ha0, rfl⟩ := List.mem_map.1 ha
      obtain ⟨b0, hb0, rfl⟩ := List.mem_map.1 hb
      rw [ida, ida] at hid
      rw [hl.ids a0 ha0 b0 hb0 hid]
    · intro a ha b hb hid
      obtain ⟨a0, ha0, rfl⟩ := List.mem_map.1 ha
      obtain ⟨b0, hb0, rfl⟩ := List.mem_map.1 hb
      rw [nma, nma] at hid
      rw [hl.names a0 ha0 b0 hb0 hid]
    · intro a ha
      obtain ⟨a0, ha0, rfl⟩ := List.mem_map.1 ha
      rw [ida]; exact hl.fresh a0 ha0
    · intro a ha
      obtain ⟨a0, ha0, rfl⟩ := List.mem_map.1 ha
      rw [nma]
      have h4 := hl.count a0 ha0
      unfold usedBy at h4 ⊢
      show _ = (((s.pols ++ [p]).filter fun q => q.plugin = a0.name).length : Int)
      rw [List.filter_append, List.length_append]
      by_cases hid : a0.id = g.id
      · have := hl.ids a0 ha0 g hgm hid
        subst this
        rw [if_pos rfl]
        have h5 : ([p].filter fun q => q.plugin = a0.name).length = 1 := by simp [hgn]
        rw [h5]
        show a0.refs + 1 = _
        omega
      · rw [if_neg hid]
        have h5 : ([p].filter fun q => q.plugin = a0.name).length = 0 := by
          have : ¬ p.plugin = a0.name := by
            intro hh
            have := hl.names a0 ha0 g hgm (by rw [← hh, hgn])
            exact hid (by rw [this])
          simp [this]
        rw [h5]
        omega
  | newPeer s p h => rw [hp] at h; exact nomatch h
  | load s m hm =>
    have hno := plugOf_none hm
    refine ⟨hu, ?_, ?_, ?_, ?_, ?_⟩
    · intro q hq
      obtain ⟨g, hg, h1, h2⟩ := hl.has q hq
      exact ⟨g, by simp [hg], h1, h2⟩
    · intro a ha b hb hid
      simp only [List.mem_cons] at ha hb
      rcases ha with rfl | ha <;> rcases hb with rfl | hb
      · rfl
      · have h1 := hl.fresh b hb; simp only at hid; omega
      · have h1 := hl.fresh a ha; simp only at hid; omega
      · exact hl.ids a ha b hb hid
    · intro a ha b hb hid
      simp only [List.mem_cons] at ha hb
      rcases ha with rfl | ha <;> rcases hb with rfl | hb
      · rfl
      · exact absurd hid.symm (hno b hb)
      · exact absurd hid (hno a ha)
      · exact hl.names a ha b hb hid
    · intro a ha
      simp only [List.mem_cons] at ha
      show a.id < s.next + 1
      rcases ha with rfl | ha
      · simp
      · have := hl.fresh a ha; omega
    · intro a ha
      simp only [List.mem_cons] at ha
      rcases ha with rfl | ha
      · show (0 : Int) = ((s.pols.filter fun q => q.plugin = m).length : Int)
        have : s.pols.filter (fun q => q.plugin = m) = [] := by
          rw [List.filter_eq_nil_iff]
          intro q hq hh
          obtain ⟨g, hg, _, h2⟩ := hl.has q hq
          exact hno g hg (by rw [h2]; simpa using hh)
        rw [this]; rfl
      · exact hl.count a ha
  | term s m g hg hr =>
    obtain ⟨hgm, hgn⟩ := plugOf_some hg
    refine ⟨hu, ?_, ?_, ?_, ?_, ?_⟩
    · intro q hq
      obtain ⟨g1, hg1, h1, h2⟩ := hl.has q hq
      refine ⟨g1, ?_, h1, h2⟩
      have : g1.id ≠ g.id := by
        intro hid
        have := hl.ids g1 hg1 g hgm hid
        subst this
        have hc := hl.count g1 hg1
        rw [hr] at hc
        have : q ∈ usedBy s g1.name := by simp [usedBy, h2]; exact hq
        have := List.length_pos_of_mem this
        omega
      simp [hg1, this]
    · exact fun a ha b hb => hl.ids a ((List.mem_filter.1 ha).1) b ((List.mem_filter.1 hb).1)
    · exact fun a ha b hb => hl.names a ((List.mem_filter.1 ha).1) b ((List.mem_filter.1 hb).1)
    · exact fun a ha => hl.fresh a ((List.mem_filter.1 ha).1)
    · exact fun a ha => hl.count a ((List.mem_filter.1 ha).1)
  | trans h1 h2 ih1 ih2 =>
    have l1 := ih1 hl (change_unique h1 hl.uniq)
    exact ih2 l1 (change_unique h2 l1.uniq)

end Verif.Strgp
