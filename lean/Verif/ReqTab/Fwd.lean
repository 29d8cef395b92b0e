import Verif.ReqTab.Proofs

/-!
# Proofs: requests that wait for answers from elsewhere
-/

namespace Verif.ReqTab

variable {α : Type} {valid : List α → Bool}

/-- How many requests were sent for this one. -/
def cnt (s : St α) (id : Nat) : Nat := s.tab.countP fun c => c.org = some id

/-- The reference held while a request is being handled. -/
def extra (x : Option Nat) (id : Nat) : Nat := if x = some id then 1 else 0

structure FInv (x : Option Nat) (s : St α) (os : List (Out α)) : Prop extends Wf s where
  loc : ∀ c ∈ s.tab, c.key.kind = .loc → c.refs = 1
  req : ∀ c ∈ s.tab, c.key.kind ≠ .loc →
    c.org = none ∧ 1 ≤ c.refs ∧ c.refs = (if c.host then 0 else 1) + cnt s c.id + extra x c.id
  org : ∀ c ∈ s.tab, ∀ o, c.org = some o → ∃ y ∈ s.tab, y.id = o ∧ y.key.kind ≠ .loc ∧
    .forward y.key c.key.conn c.key.msg ∈ os
  done : ∀ k d n, .forward k d n ∈ os → (∃ t, .toOrg d n k t ∈ os) ∨
    ∃ c ∈ s.tab, c.key = ⟨.loc, d, n⟩ ∧ ∃ y ∈ s.tab, c.org = some y.id ∧ y.key = k

theorem cnt_update {s : St α} (id : Nat) {f : Ctx α → Ctx α} (ho : ∀ c, (f c).org = c.org) (j : Nat) :
    cnt (update s id f) j = cnt s j := by
  unfold cnt update
  simp only [List.countP_map]
  congr 1
  funext c
  simp only [Function.comp]
  split
  · rw [ho]
  · rfl

/-- A change of the bytes only. -/
theorem FInv.buf {x : Option Nat} {s : St α} {os : List (Out α)} (h : FInv x s os) (id : Nat) (b : List α) :
    FInv x (update s id fun c => { c with buf := b }) os := by
  have hm : ∀ c ∈ (update s id fun c => { c with buf := b }).tab, ∃ d ∈ s.tab,
      c.id = d.id ∧ c.key = d.key ∧ c.org = d.org ∧ c.refs = d.refs ∧ c.host = d.host := by
    intro c hc
    rcases mem_update.mp hc with ⟨h1, _⟩ | ⟨d, h1, _, rfl⟩
    · exact ⟨c, h1, rfl, rfl, rfl, rfl, rfl⟩
    · exact ⟨d, h1, rfl, rfl, rfl, rfl, rfl⟩
  have hm' : ∀ d ∈ s.tab, ∃ c ∈ (update s id fun c => { c with buf := b }).tab,
      c.id = d.id ∧ c.key = d.key ∧ c.org = d.org := by
    intro d hd
    by_cases e : d.id = id
    · exact ⟨_, mem_update.mpr (.inr ⟨d, hd, e, rfl⟩), rfl, rfl, rfl⟩
    · exact ⟨d, mem_update.mpr (.inl ⟨hd, e⟩), rfl, rfl, rfl⟩
  refine ⟨h.toWf.update id (fun _ => rfl) (fun _ => rfl), ?_, ?_, ?_, ?_⟩
  · intro c hc e
    obtain ⟨d, hd, e1, e2, e3, e4, e5⟩ := hm c hc
    rw [e4]; exact h.loc d hd (by rw [← e2]; exact e)
  · intro c hc e
    obtain ⟨d, hd, e1, e2, e3, e4, e5⟩ := hm c hc
    rw [e4, e3, e5, e1, cnt_update id (f := fun c => { c with buf := b }) (fun _ => rfl)]
    exact h.req d hd (by rw [← e2]; exact e)
  · intro c hc o eo
    obtain ⟨d, hd, e1, e2, e3, e4, e5⟩ := hm c hc
    obtain ⟨y, hy, y1, y2, y3⟩ := h.org d hd o (by rw [← e3]; exact eo)
    obtain ⟨z, hz, z1, z2, _⟩ := hm' y hy
    exact ⟨z, hz, by rw [z1, y1], by rw [z2]; exact y2, by rw [z2, e2]; exact y3⟩
  · intro k d n hf
    rcases h.done k d n hf with h1 | ⟨c, hc, e1, y, hy, e2, e3⟩
    · exact .inl h1
    · obtain ⟨c', hc', a1, a2, a3⟩ := hm' c hc
      obtain ⟨y', hy', b1, b2, _⟩ := hm' y hy
      exact .inr ⟨c', hc', by rw [a2, e1], y', hy', by rw [a3, e2, b1], by rw [b2, e3]⟩

theorem cnt_fresh {x : Option Nat} {s : St α} {os : List (Out α)} (h : FInv x s os) {id : Nat} (hi : s.next ≤ id) :
    cnt s id = 0 := by
  unfold cnt
  rw [List.countP_eq_zero]
  intro c hc e
  obtain ⟨y, hy, y1, _⟩ := h.org c hc id (by simpa using e)
  have := h.lt y hy
  omega

/-- A new request comes. -/
theorem FInv.new {s : St α} {os : List (Out α)} (h : FInv none s os) {k : Key} (hk : k.Ok) :
    FInv none (alloc s k none) os := by
  have hcnt : ∀ j, cnt (alloc s k none) j = cnt s j := by
    intro j; simp [cnt, alloc]
  refine ⟨h.toWf.alloc hk none, ?_, ?_, ?_, ?_⟩
  · intro c hc e
    rcases List.mem_cons.mp hc with rfl | hc
    · rfl
    · exact h.loc c hc e
  · intro c hc e
    rw [hcnt]
    rcases List.mem_cons.mp hc with rfl | hc
    · simp [cnt_fresh h (Nat.le_refl _), extra]
    · exact h.req c hc e
  · intro c hc o eo
    rcases List.mem_cons.mp hc with rfl | hc
    · cases eo
    · obtain ⟨y, hy, y1, y2, y3⟩ := h.org c hc o eo
      exact ⟨y, List.mem_cons_of_mem _ hy, y1, y2, y3⟩
  · intro k' d n hf
    rcases h.done k' d n hf with h1 | ⟨c, hc, e1, y, hy, e2, e3⟩
    · exact .inl h1
    · exact .inr ⟨c, List.mem_cons_of_mem _ hc, e1, y, List.mem_cons_of_mem _ hy, e2, e3⟩

/-- The daemon asks for itself. -/
theorem FInv.own {s : St α} {os : List (Out α)} (h : FInv none s os) {conn : Nat} (hc : conn < 2 ^ 32) :
    FInv none (ask s conn none) os := by
  have hcnt : ∀ j, cnt (ask s conn none) j = cnt s j := by
    intro j; simp [cnt, ask, alloc]
  refine ⟨h.toWf.ask hc none, ?_, ?_, ?_, ?_⟩
  · intro c hc e
    rcases List.mem_cons.mp hc with rfl | hc
    · rfl
    · exact h.loc c hc e
  · intro c hc e
    rw [hcnt]
    rcases List.mem_cons.mp hc with rfl | hc
    · exact absurd rfl e
    · exact h.req c hc e
  · intro c hc o eo
    rcases List.mem_cons.mp hc with rfl | hc
    · cases eo
    · obtain ⟨y, hy, y1, y2, y3⟩ := h.org c hc o eo
      exact ⟨y, List.mem_cons_of_mem _ hy, y1, y2, y3⟩
  · intro k' d n hf
    rcases h.done k' d n hf with h1 | ⟨c, hc, e1, y, hy, e2, e3⟩
    · exact .inl h1
    · exact .inr ⟨c, List.mem_cons_of_mem _ hc, e1, y, List.mem_cons_of_mem _ hy, e2, e3⟩

/-- It is converted: from now on the reference is that of the handler. -/
theorem FInv.host {s : St α} {os : List (Out α)} (h : FInv none s os) {c : Ctx α} (hc : c ∈ s.tab)
    (hh : c.host = false) : FInv (some c.id) (update s c.id fun c => { c with host := true }) os := by
  have hm : ∀ y ∈ (update s c.id fun c => { c with host := true }).tab,
      (y ∈ s.tab ∧ y.id ≠ c.id) ∨ y = { c with host := true } := by
    intro y hy
    rcases mem_update.mp hy with h1 | ⟨d, h1, h2, rfl⟩
    · exact .inl h1
    · rw [h.eq h1 hc h2]; exact .inr rfl
  have hm' : ∀ d ∈ s.tab, ∃ y ∈ (update s c.id fun c => { c with host := true }).tab,
      y.id = d.id ∧ y.key = d.key ∧ y.org = d.org := by
    intro d hd
    by_cases e : d.id = c.id
    · exact ⟨_, mem_update.mpr (.inr ⟨d, hd, e, rfl⟩), rfl, rfl, rfl⟩
    · exact ⟨d, mem_update.mpr (.inl ⟨hd, e⟩), rfl, rfl, rfl⟩
  refine ⟨h.toWf.update c.id (fun _ => rfl) (fun _ => rfl), ?_, ?_, ?_, ?_⟩
  · intro y hy e
    rcases hm y hy with ⟨h1, _⟩ | rfl
    · exact h.loc y h1 e
    · exact h.loc c hc e
  · intro y hy e
    rw [cnt_update c.id (f := fun c => { c with host := true }) (fun _ => rfl)]
    rcases hm y hy with ⟨h1, h2⟩ | rfl
    · have := h.req y h1 e
      simpa [extra, Ne.symm h2] using this
    · have := h.req c hc e
      simp only [hh, Bool.false_eq_true, if_false, extra, reduceCtorEq] at this
      refine ⟨this.1, this.2.1, ?_⟩
      simp only [if_true, extra]
      omega
  · intro y hy o eo
    have : ∃ d ∈ s.tab, d.org = some o ∧ d.key = y.key := by
      rcases hm y hy with ⟨h1, _⟩ | rfl
      · exact ⟨y, h1, eo, rfl⟩
      · exact ⟨c, hc, eo, rfl⟩
    obtain ⟨d, hd, e1, e2⟩ := this
    obtain ⟨z, hz, z1, z2, z3⟩ := h.org d hd o e1
    obtain ⟨w, hw, w1, w2, _⟩ := hm' z hz
    exact ⟨w, hw, by rw [w1, z1], by rw [w2]; exact z2, by rw [w2, ← e2]; exact z3⟩
  · intro k' d n hf
    rcases h.done k' d n hf with h1 | ⟨a, ha, e1, y, hy, e2, e3⟩
    · exact .inl h1
    · obtain ⟨c', hc', a1, a2, a3⟩ := hm' a ha
      obtain ⟨y', hy', b1, b2, _⟩ := hm' y hy
      exact .inr ⟨c', hc', by rw [a2, e1], y', hy', by rw [a3, e2, b1], by rw [b2, e3]⟩

theorem mem_ask {s : St α} {d id : Nat} {y : Ctx α} : y ∈ (ask s d (some id)).tab ↔
    y = ⟨s.next, ⟨.loc, d, s.msgNo⟩, [], 1, some id, false⟩ ∨
      y ∈ (update s id fun c => { c with refs := c.refs + 1 }).tab := by
  unfold ask alloc
  exact List.mem_cons

/-- The handler sends a request for it. -/
theorem FInv.fwd {s : St α} {os : List (Out α)} {c : Ctx α} (hc : c ∈ s.tab) (hl : c.key.kind ≠ .loc)
    (h : FInv (some c.id) s os) {d : Nat} (hd : d < 2 ^ 32) :
    FInv (some c.id) (ask s d (some c.id)) (os ++ [.forward c.key d s.msgNo]) ∧
    { c with refs := c.refs + 1 } ∈ (ask s d (some c.id)).tab := by
  have hcm : { c with refs := c.refs + 1 } ∈ (ask s d (some c.id)).tab :=
    mem_ask.mpr (.inr (mem_update.mpr (.inr ⟨c, hc, rfl, rfl⟩)))
  have hm : ∀ y ∈ (ask s d (some c.id)).tab, y = ⟨s.next, ⟨.loc, d, s.msgNo⟩, [], 1, some c.id, false⟩ ∨
      (y ∈ s.tab ∧ y.id ≠ c.id) ∨ y = { c with refs := c.refs + 1 } := by
    intro y hy
    rcases mem_ask.mp hy with h1 | h1
    · exact .inl h1
    · rcases mem_update.mp h1 with h2 | ⟨x, h2, h3, rfl⟩
      · exact .inr (.inl h2)
      · rw [h.eq h2 hc h3]; exact .inr (.inr rfl)
  have hm' : ∀ x ∈ s.tab, ∃ y ∈ (ask s d (some c.id)).tab, y.id = x.id ∧ y.key = x.key ∧ y.org = x.org := by
    intro x hx
    by_cases e : x.id = c.id
    · exact ⟨_, mem_ask.mpr (.inr (mem_update.mpr (.inr ⟨x, hx, e, rfl⟩))), rfl, rfl, rfl⟩
    · exact ⟨x, mem_ask.mpr (.inr (mem_update.mpr (.inl ⟨hx, e⟩))), rfl, rfl, rfl⟩
  have hcnt : ∀ j, cnt (ask s d (some c.id)) j = cnt s j + (if c.id = j then 1 else 0) := by
    intro j
    have e : cnt (ask s d (some c.id)) j =
        cnt (update s c.id fun c => { c with refs := c.refs + 1 }) j + (if c.id = j then 1 else 0) := by
      unfold cnt ask alloc
      simp only [List.countP_cons, Option.some.injEq, decide_eq_true_eq]
    rw [e, cnt_update c.id (f := fun c => { c with refs := c.refs + 1 }) (fun _ => rfl)]
  refine ⟨⟨h.toWf.ask hd _, ?_, ?_, ?_, ?_⟩, hcm⟩
  · intro y hy e
    rcases hm y hy with rfl | ⟨h1, _⟩ | rfl
    · rfl
    · exact h.loc y h1 e
    · exact absurd e hl
  · intro y hy e
    rw [hcnt]
    rcases hm y hy with rfl | ⟨h1, h2⟩ | rfl
    · exact absurd rfl e
    · rw [if_neg (Ne.symm h2)]
      exact h.req y h1 e
    · obtain ⟨a1, a2, a3⟩ := h.req c hc hl
      refine ⟨a1, by simp only; omega, ?_⟩
      simp only [if_true]
      omega
  · intro y hy o eo
    rcases hm y hy with rfl | ⟨h1, _⟩ | rfl
    · cases eo
      exact ⟨_, hcm, rfl, hl, by simp⟩
    · obtain ⟨z, hz, z1, z2, z3⟩ := h.org y h1 o eo
      obtain ⟨w, hw, w1, w2, _⟩ := hm' z hz
      exact ⟨w, hw, by rw [w1, z1], by rw [w2]; exact z2, by rw [w2]; exact List.mem_append_left _ z3⟩
    · have := (h.req c hc hl).1
      rw [show c.org = some o from eo] at this
      cases this
  · intro k d' n hf
    rcases List.mem_append.mp hf with hf | hf
    · rcases h.done k d' n hf with ⟨t, h1⟩ | ⟨a, ha, e1, y, hy, e2, e3⟩
      · exact .inl ⟨t, List.mem_append_left _ h1⟩
      · obtain ⟨c', hc', a1, a2, a3⟩ := hm' a ha
        obtain ⟨y', hy', b1, b2, _⟩ := hm' y hy
        exact .inr ⟨c', hc', by rw [a2, e1], y', hy', by rw [a3, e2, b1], by rw [b2, e3]⟩
    · simp only [List.mem_singleton, Out.forward.injEq] at hf
      obtain ⟨rfl, rfl, rfl⟩ := hf
      exact .inr ⟨_, mem_ask.mpr (.inl rfl), rfl, _, hcm, rfl, rfl⟩

theorem FInv.fwds : ∀ (ds : List Nat) {s : St α} {os : List (Out α)} {c : Ctx α}, c ∈ s.tab → c.key.kind ≠ .loc →
    FInv (some c.id) s os → (∀ d ∈ ds, d < 2 ^ 32) →
    FInv (some c.id) (forwards c.key c.id ds s).1 (os ++ (forwards c.key c.id ds s).2) ∧
    (∃ e ∈ (forwards c.key c.id ds s).1.tab, e.id = c.id ∧ e.key = c.key ∧ e.host = c.host) ∧
    ∀ o ∈ (forwards c.key c.id ds s).2, ∃ d n, o = .forward c.key d n
  | [], s, os, c, hc, _, h, _ => ⟨by simpa [forwards] using h, ⟨c, hc, rfl, rfl, rfl⟩, fun _ h => nomatch h⟩
  | d :: ds, s, os, c, hc, hl, h, hd => by
    obtain ⟨h1, h2⟩ := h.fwd hc hl (hd d (by simp))
    obtain ⟨a, b, e⟩ := FInv.fwds ds h2 hl h1 (fun x hx => hd x (by simp [hx]))
    simp only [forwards]
    refine ⟨?_, b, ?_⟩
    · have : os ++ Out.forward c.key d s.msgNo :: (forwards c.key c.id ds (ask s d (some c.id))).2 =
          os ++ [Out.forward c.key d s.msgNo] ++ (forwards c.key c.id ds (ask s d (some c.id))).2 := by simp
      rw [this]
      exact a
    · intro o ho
      rcases List.mem_cons.mp ho with rfl | ho
      · exact ⟨d, _, rfl⟩
      · exact e o ho

theorem cnt_put {s : St α} (h : Wf s) {c : Ctx α} (hc : c ∈ s.tab) (j : Nat) :
    cnt (put s c.id) j + (if c.refs ≤ 1 ∧ c.org = some j then 1 else 0) = cnt s j := by
  have hi := h.inj
  clear h
  revert hi
  unfold cnt put
  simp only
  generalize s.tab = l at *
  induction l with
  | nil => cases hc
  | cons x l ih =>
    intro hn
    simp only [List.map_cons, List.nodup_cons, List.mem_map, not_exists, not_and] at hn
    rw [List.filterMap_cons]
    rcases List.mem_cons.mp hc with rfl | hc
    · have hno : (l.filterMap fun y => if y.id = c.id then (if y.refs ≤ 1 then none else some { y with refs := y.refs - 1 }) else some y) = l := by
        have : ∀ y ∈ l, y.id ≠ c.id := hn.1
        clear ih hn hc
        induction l with
        | nil => rfl
        | cons y l ih =>
          rw [List.filterMap_cons, if_neg (this y (by simp))]
          simp only
          rw [ih fun z hz => this z (by simp [hz])]
      rw [hno]
      simp only [if_true]
      by_cases hr : c.refs ≤ 1
      · simp only [hr, if_true, true_and, List.countP_cons, decide_eq_true_eq]
      · simp only [hr, false_and, if_false, List.countP_cons, decide_eq_true_eq, Nat.add_zero]
    · have hne : x.id ≠ c.id := fun e => hn.1 c hc e.symm
      rw [if_neg hne]
      simp only [List.countP_cons]
      have := ih hc hn.2
      omega

/-- The handler is done. -/
theorem FInv.finish {s : St α} {os : List (Out α)} {c : Ctx α} (hc : c ∈ s.tab) (hl : c.key.kind ≠ .loc)
    (hh : c.host = true) (h : FInv (some c.id) s os) : FInv none (put s c.id) os := by
  obtain ⟨r1, r2, r3⟩ := h.req c hc hl
  simp only [hh, if_true, extra] at r3
  have hcnt : ∀ j, cnt (put s c.id) j = cnt s j := by
    intro j
    have := cnt_put h.toWf hc j
    rw [r1] at this
    simpa using this
  have hm : ∀ y ∈ (put s c.id).tab, (y ∈ s.tab ∧ y.id ≠ c.id) ∨ (1 < c.refs ∧ y = { c with refs := c.refs - 1 }) := by
    intro y hy
    rcases mem_put.mp hy with h1 | ⟨d, h1, h2, h3, rfl⟩
    · exact .inl h1
    · rw [h.eq h1 hc h2] at h3 ⊢; exact .inr ⟨h3, rfl⟩
  have hm' : ∀ x ∈ s.tab, (x.id = c.id → 1 < c.refs) → ∃ y ∈ (put s c.id).tab, y.id = x.id ∧ y.key = x.key ∧ y.org = x.org := by
    intro x hx hr
    by_cases e : x.id = c.id
    · have := h.eq hx hc e
      subst this
      exact ⟨_, mem_put.mpr (.inr ⟨x, hx, rfl, hr rfl, rfl⟩), rfl, rfl, rfl⟩
    · exact ⟨x, mem_put.mpr (.inl ⟨hx, e⟩), rfl, rfl, rfl⟩
  have hpos : ∀ a ∈ s.tab, a.org = some c.id → 1 < c.refs := by
    intro a ha e
    have : 0 < cnt s c.id := by
      unfold cnt
      exact List.countP_pos_iff.mpr ⟨a, ha, by simpa using e⟩
    omega
  refine ⟨h.toWf.put c.id, ?_, ?_, ?_, ?_⟩
  · intro y hy e
    rcases hm y hy with ⟨h1, _⟩ | ⟨_, rfl⟩
    · exact h.loc y h1 e
    · exact absurd e hl
  · intro y hy e
    rw [hcnt]
    rcases hm y hy with ⟨h1, h2⟩ | ⟨h1, rfl⟩
    · have := h.req y h1 e
      simpa [extra, Ne.symm h2] using this
    · refine ⟨r1, by simp only; omega, ?_⟩
      simp only [hh, if_true, extra, reduceCtorEq, if_false]
      omega
  · intro y hy o eo
    have : ∃ a ∈ s.tab, a.org = some o ∧ a.key = y.key := by
      rcases hm y hy with ⟨h1, _⟩ | ⟨_, rfl⟩
      · exact ⟨y, h1, eo, rfl⟩
      · exact ⟨c, hc, eo, rfl⟩
    obtain ⟨a, ha, e1, e2⟩ := this
    obtain ⟨z, hz, z1, z2, z3⟩ := h.org a ha o e1
    obtain ⟨w, hw, w1, w2, _⟩ := hm' z hz (fun e => hpos a ha (by rw [e1, ← z1, e]))
    exact ⟨w, hw, by rw [w1, z1], by rw [w2]; exact z2, by rw [w2, ← e2]; exact z3⟩
  · intro k d n hf
    rcases h.done k d n hf with h1 | ⟨a, ha, e1, y, hy, e2, e3⟩
    · exact .inl h1
    · have hal : a.id ≠ c.id := by
        intro e
        have := h.eq ha hc e
        subst this
        rw [e1] at hl
        exact hl rfl
      obtain ⟨c', hc', a1, a2, a3⟩ := hm' a ha (fun e => absurd e hal)
      obtain ⟨y', hy', b1, b2, _⟩ := hm' y hy (fun e => hpos a ha (by rw [e2, e]))
      exact .inr ⟨c', hc', by rw [a2, e1], y', hy', by rw [a3, e2, b1], by rw [b2, e3]⟩

/-- More is seen that is no sending. -/
theorem FInv.more {x : Option Nat} {s : St α} {os ps : List (Out α)} (h : FInv x s os)
    (hp : ∀ k d n, .forward k d n ∉ ps) : FInv x s (os ++ ps) := by
  refine ⟨h.toWf, h.loc, h.req, ?_, ?_⟩
  · intro c hc o eo
    obtain ⟨y, h1, h2, h3, h4⟩ := h.org c hc o eo
    exact ⟨y, h1, h2, h3, List.mem_append_left _ h4⟩
  · intro k d n hf
    rcases List.mem_append.mp hf with hf | hf
    · rcases h.done k d n hf with ⟨t, h1⟩ | h1
      · exact .inl ⟨t, List.mem_append_left _ h1⟩
      · exact .inr h1
    · exact absurd hf (hp k d n)

/-- What a step may show. -/
structure Good (os ps : List (Out α)) : Prop where
  safe : .useAfterFree ∉ ps
  fit : ∀ a d n k t b, ps = a ++ .toOrg d n k t :: b → .forward k d n ∈ os ++ a

theorem Good.none {os ps : List (Out α)} (h1 : .useAfterFree ∉ ps) (h2 : ∀ d n k t, .toOrg d n k t ∉ ps) : Good os ps :=
  ⟨h1, by intro a d n k t b e; exact absurd (by rw [e]; simp) (h2 d n k t)⟩

theorem Good.append {os ps qs : List (Out α)} (h1 : Good os ps) (h2 : Good (os ++ ps) qs) : Good os (ps ++ qs) := by
  refine ⟨?_, ?_⟩
  · intro h
    rcases List.mem_append.mp h with h | h
    · exact h1.safe h
    · exact h2.safe h
  · intro a d n k t b e
    rcases List.append_eq_append_iff.mp e with ⟨u, e1, e2⟩ | ⟨u, e1, e2⟩
    · have := h2.fit u d n k t b e2
      rw [e1, ← List.append_assoc]
      exact this
    · cases u with
      | nil =>
        simp only [List.nil_append] at e2
        simp only [List.append_nil] at e1
        have := h2.fit [] d n k t b (by rw [List.nil_append]; exact e2.symm)
        rw [← e1]
        simpa using this
      | cons z u =>
        simp only [List.cons_append, List.cons.injEq] at e2
        obtain ⟨rfl, _⟩ := e2
        exact h1.fit a d n k t u e1

theorem gather_fwd {s : St α} {os : List (Out α)} (h : FInv none s os) {c : Ctx α} (hc : c ∈ s.tab)
    (hl : c.key.kind ≠ .loc) (hh : c.host = false) (r : Rec α) {fwd : List Nat} (hf : ∀ d ∈ fwd, d < 2 ^ 32) :
    FInv none (gather valid s c r fwd).1 (os ++ (gather valid s c r fwd).2) ∧ Good os (gather valid s c r fwd).2 := by
  have h1 := h.buf c.id (c.buf ++ r.body)
  unfold gather
  simp only []
  split
  · rw [List.append_nil]
    exact ⟨h1, Good.none (fun h => nomatch h) (fun _ _ _ _ h => nomatch h)⟩
  · split
    · exact ⟨h1.more (by simp), Good.none (by simp) (by simp)⟩
    · have hcm : { c with buf := c.buf ++ r.body } ∈ (update s c.id fun d => { d with buf := c.buf ++ r.body }).tab :=
        mem_update.mpr (.inr ⟨c, hc, rfl, rfl⟩)
      have h2 := (h1.host hcm hh).more (ps := [if c.host then Out.garbled c.key else .handled c.key (c.buf ++ r.body)]) (by
        intro k d n
        cases c.host <;> simp)
      have hcm2 : { c with buf := c.buf ++ r.body, host := true } ∈
          (update (update s c.id fun d => { d with buf := c.buf ++ r.body }) c.id fun d => { d with host := true }).tab :=
        mem_update.mpr (.inr ⟨_, hcm, rfl, rfl⟩)
      obtain ⟨h3, ⟨e, he, e1, e2, e3⟩, h5⟩ := FInv.fwds fwd hcm2 hl h2 hf
      have e1' : e.id = c.id := e1
      have e2' : e.key = c.key := e2
      have h4 := FInv.finish he (by rw [e2']; exact hl) e3 (by rw [e1']; exact h3)
      rw [e1'] at h4
      refine ⟨?_, ?_⟩
      · simpa using h4
      · refine Good.none ?_ ?_
        · intro hm
          rcases List.mem_cons.mp hm with hm | hm
          · rw [hh] at hm; cases hm
          · obtain ⟨d, n, e⟩ := h5 _ hm; cases e
        · intro d n k t hm
          rcases List.mem_cons.mp hm with hm | hm
          · rw [hh] at hm; cases hm
          · obtain ⟨d, n, e⟩ := h5 _ hm; cases e

theorem resp_fwd {s : St α} {os : List (Out α)} (h : FInv none s os) {conn : Nat} {r : Rec α} (hcn : conn < 2 ^ 32)
    (hmn : r.msg < 2 ^ 32) :
    FInv none (resp valid s conn r).1 (os ++ (resp valid s conn r).2) ∧ Good os (resp valid s conn r).2 := by
  have hnil : ∀ s' : St α, FInv none s' os → FInv none s' (os ++ []) ∧ Good os [] := by
    intro s' hs
    rw [List.append_nil]
    exact ⟨hs, Good.none (fun h => nomatch h) (fun _ _ _ _ h => nomatch h)⟩
  unfold resp
  split
  · exact hnil s h
  · cases hf : find s ⟨.loc, conn, r.msg⟩ with
    | none => exact hnil s h
    | some c =>
      obtain ⟨hc, ec⟩ := h.toWf.find_some ⟨hcn, hmn⟩ hf
      have hck : c.key.kind = .loc := by rw [ec]
      have hcr := h.loc c hc hck
      have h1 := h.buf c.id (c.buf ++ r.body)
      simp only []
      split
      · exact hnil _ h1
      · split
        · exact hnil _ h1
        · cases ho : c.org with
          | none =>
            simp only []
            -- the context goes, nobody refers to it
            have hcm : { c with buf := c.buf ++ r.body } ∈ (update s c.id fun d => { d with buf := c.buf ++ r.body }).tab :=
              mem_update.mpr (.inr ⟨c, hc, rfl, rfl⟩)
            revert h1 hcm
            generalize (update s c.id fun d => { d with buf := c.buf ++ r.body }) = s1
            intro h1 hcm
            have hm : ∀ y, y ∈ (put s1 c.id).tab ↔ y ∈ s1.tab ∧ y.id ≠ c.id := by
              intro y
              rw [mem_put]
              constructor
              · rintro (hh | ⟨d, a1, a2, a3, rfl⟩)
                · exact hh
                · rw [h1.eq a1 hcm a2] at a3
                  simp only at a3
                  omega
              · exact .inl
            have hcnt : ∀ j, cnt (put s1 c.id) j = cnt s1 j := by
              intro j
              have := cnt_put h1.toWf hcm j
              simp only [ho] at this
              simpa using this
            refine ⟨FInv.more ⟨h1.toWf.put _, ?_, ?_, ?_, ?_⟩ (by simp), Good.none (by simp) (by simp)⟩
            · intro y hy; exact h1.loc y ((hm y).mp hy).1
            · intro y hy e
              rw [hcnt]
              exact h1.req y ((hm y).mp hy).1 e
            · intro y hy o eo
              obtain ⟨z, z1, z2, z3, z4⟩ := h1.org y ((hm y).mp hy).1 o eo
              refine ⟨z, (hm z).mpr ⟨z1, ?_⟩, z2, z3, z4⟩
              intro e
              rw [h1.eq z1 hcm e] at z3
              exact z3 hck
            · intro k d n hfw
              rcases h1.done k d n hfw with a | ⟨a, ha, e1, y, hy, e2, e3⟩
              · exact .inl a
              · refine .inr ⟨a, (hm a).mpr ⟨ha, ?_⟩, e1, y, (hm y).mpr ⟨hy, ?_⟩, e2, e3⟩
                · intro e
                  rw [h1.eq ha hcm e] at e2
                  simp only [ho] at e2
                  cases e2
                · intro e
                  obtain ⟨z, z1, z2, z3, _⟩ := h1.org a ha _ e2
                  rw [h1.eq z1 hy z2, h1.eq hy hcm e] at z3
                  exact z3 hck
          | some o =>
            simp only []
            obtain ⟨x, hx, x1, x2, x3⟩ := h.org c hc o ho
            have hfx : (s.tab.find? fun y => y.id = o) = some x := by
              cases hq : s.tab.find? fun y => y.id = o with
              | none =>
                have := List.find?_eq_none.mp hq x hx
                simp [x1] at this
              | some x' =>
                have a1 := List.mem_of_find?_eq_some hq
                have a2 := List.find?_some hq
                rw [h.eq a1 hx (by rw [x1]; simpa using a2)]
            rw [hfx]
            simp only []
            have hfor : .forward x.key conn r.msg ∈ os := by
              rw [ec] at x3; exact x3
            have hne : x.id ≠ c.id := by
              intro e
              rw [h.eq hx hc e] at x2
              exact x2 hck
            have hcm : { c with buf := c.buf ++ r.body } ∈ (update s c.id fun d => { d with buf := c.buf ++ r.body }).tab :=
              mem_update.mpr (.inr ⟨c, hc, rfl, rfl⟩)
            have hxm : x ∈ (update s c.id fun d => { d with buf := c.buf ++ r.body }).tab :=
              mem_update.mpr (.inl ⟨hx, hne⟩)
            revert h1 hcm hxm
            generalize (update s c.id fun d => { d with buf := c.buf ++ r.body }) = s1
            intro h1 hcm hxm
            obtain ⟨q1, q2, q3⟩ := h1.req x hxm x2
            simp only [extra, reduceCtorEq, if_false, Nat.add_zero] at q3
            have hc2 : { c with buf := c.buf ++ r.body } ∈ (put s1 o).tab :=
              mem_put.mpr (.inl ⟨hcm, by simp only; rw [← x1]; exact Ne.symm hne⟩)
            have hcpos : 0 < cnt s1 x.id := by
              unfold cnt
              exact List.countP_pos_iff.mpr ⟨_, hcm, by simp only [ho, x1]; simp⟩
            have hm : ∀ y, y ∈ (put (put s1 o) c.id).tab ↔ (y ∈ s1.tab ∧ y.id ≠ o ∧ y.id ≠ c.id) ∨
                (1 < x.refs ∧ y = { x with refs := x.refs - 1 }) := by
              intro y
              rw [mem_put]
              constructor
              · rintro (⟨b1, b2⟩ | ⟨d, a1, a2, a3, rfl⟩)
                · rcases mem_put.mp b1 with ⟨b3, b4⟩ | ⟨d, a1, a2, a3, rfl⟩
                  · exact .inl ⟨b3, b4, b2⟩
                  · have := h1.eq a1 hxm (by rw [a2, x1])
                    subst this
                    exact .inr ⟨a3, rfl⟩
                · exfalso
                  have := (h1.toWf.put o).eq a1 hc2 a2
                  rw [this] at a3
                  simp only at a3
                  omega
              · rintro (⟨b1, b2, b3⟩ | ⟨b1, rfl⟩)
                · exact .inl ⟨mem_put.mpr (.inl ⟨b1, b2⟩), b3⟩
                · exact .inl ⟨mem_put.mpr (.inr ⟨x, hxm, x1, b1, rfl⟩), hne⟩
            have hcnt : ∀ j, cnt (put (put s1 o) c.id) j + (if o = j then 1 else 0) = cnt s1 j := by
              intro j
              have a := cnt_put h1.toWf hxm j
              rw [x1, q1] at a
              simp only [reduceCtorEq, and_false, if_false, Nat.add_zero] at a
              have b := cnt_put (h1.toWf.put o) hc2 j
              simp only [ho, hcr, Nat.le_refl, true_and, Option.some.injEq] at b
              omega
            have hkeep : ∀ a ∈ s1.tab, a.org = some o → a.id ≠ c.id → 1 < x.refs := by
              intro a ha ea hac
              have : 0 < cnt (put (put s1 o) c.id) o := by
                unfold cnt
                refine List.countP_pos_iff.mpr ⟨a, (hm a).mpr (.inl ⟨ha, ?_, hac⟩), by simpa using ea⟩
                intro e
                rw [h1.eq ha hxm (by rw [e, x1]), q1] at ea
                cases ea
              have b := hcnt o
              rw [if_pos rfl] at b
              rw [x1] at q3
              omega
            have hm' : ∀ z ∈ s1.tab, z.id ≠ c.id → (z.id = o → 1 < x.refs) →
                ∃ y ∈ (put (put s1 o) c.id).tab, y.id = z.id ∧ y.key = z.key ∧ y.org = z.org := by
              intro z hz hzc hzo
              by_cases e : z.id = o
              · have := h1.eq hz hxm (by rw [e, x1])
                subst this
                exact ⟨_, (hm _).mpr (.inr ⟨hzo e, rfl⟩), rfl, rfl, rfl⟩
              · exact ⟨z, (hm z).mpr (.inl ⟨hz, e, hzc⟩), rfl, rfl, rfl⟩
            have hreqid : ∀ a ∈ s1.tab, a.key.kind ≠ .loc → a.id ≠ c.id := by
              intro a ha hk e
              rw [h1.eq ha hcm e] at hk
              exact hk hck
            refine ⟨⟨(h1.toWf.put o).put c.id, ?_, ?_, ?_, ?_⟩, ⟨by simp, ?_⟩⟩
            · intro y hy e
              rcases (hm y).mp hy with ⟨b1, _⟩ | ⟨_, rfl⟩
              · exact h1.loc y b1 e
              · exact absurd e x2
            · intro y hy e
              rcases (hm y).mp hy with ⟨b1, b2, _⟩ | ⟨b1, rfl⟩
              · have b := hcnt y.id
                rw [if_neg (Ne.symm b2), Nat.add_zero] at b
                rw [b]
                exact h1.req y b1 e
              · have b := hcnt x.id
                rw [if_pos x1.symm] at b
                refine ⟨q1, by simp only; omega, ?_⟩
                simp only [extra, reduceCtorEq, if_false, Nat.add_zero]
                omega
            · intro y hy p ep
              rcases (hm y).mp hy with ⟨b1, b2, b3⟩ | ⟨_, rfl⟩
              · obtain ⟨z, z1, z2, z3, z4⟩ := h1.org y b1 p ep
                obtain ⟨w, w1, w2, w3, _⟩ := hm' z z1 (hreqid z z1 z3) (fun e => hkeep y b1 (by rw [ep, ← z2, e]) b3)
                exact ⟨w, w1, by rw [w2, z2], by rw [w3]; exact z3, by rw [w3]; exact List.mem_append_left _ z4⟩
              · rw [show x.org = some p from ep] at q1
                cases q1
            · intro k d n hfw
              rcases List.mem_append.mp hfw with hfw | hfw
              · rcases h1.done k d n hfw with ⟨t, a⟩ | ⟨a, ha, e1, y, hy, e2, e3⟩
                · exact .inl ⟨t, List.mem_append_left _ a⟩
                · by_cases hac : a.id = c.id
                  · have e5 := h1.eq ha hcm hac
                    rw [e5] at e1 e2
                    simp only [ec, ho, Key.mk.injEq, Option.some.injEq] at e1 e2
                    obtain ⟨_, rfl, rfl⟩ := e1
                    have := h1.eq hy hxm (by rw [x1, e2])
                    subst this
                    subst e3
                    exact .inl ⟨_, List.mem_append_right _ (List.mem_singleton.mpr rfl)⟩
                  · obtain ⟨z, z1, z2, z3, _⟩ := h1.org a ha _ e2
                    have hzy := h1.eq z1 hy z2
                    subst hzy
                    obtain ⟨a', a1, a2, a3, a4⟩ := hm' a ha hac (by
                      intro e
                      rw [h1.eq ha hxm (by rw [e, x1]), q1] at e2
                      cases e2)
                    obtain ⟨w, w1, w2, w3, _⟩ := hm' z hy (hreqid z hy z3) (fun e => hkeep a ha (by rw [e2, e]) hac)
                    exact .inr ⟨a', a1, by rw [a3, e1], w, w1, by rw [a4, e2, w2], by rw [w3, e3]⟩
              · simp at hfw
            · intro a d n k t b e
              cases a with
              | nil =>
                simp only [List.nil_append, List.cons.injEq, Out.toOrg.injEq] at e
                obtain ⟨⟨rfl, rfl, rfl, _⟩, _⟩ := e
                simpa using hfor
              | cons z a => simp at e

theorem step_fwd {s : St α} {os : List (Out α)} {e : Ev α} (h : FInv none s os) (h0 : e.Ok)
    (p1 : ∀ conn, e ≠ .term conn) (p2 : ∀ kind conn r fwd, e = .recv kind conn r fwd → r.som = false →
      ∀ c, find s ⟨kind, conn, r.msg⟩ = some c → c.host = false) :
    FInv none (step valid s e).1 (os ++ (step valid s e).2) ∧ Good os (step valid s e).2 := by
  cases e with
  | term conn => exact absurd rfl (p1 conn)
  | own conn =>
    simp only [step, List.append_nil]
    exact ⟨h.own h0, Good.none (fun h => nomatch h) (fun _ _ _ _ h => nomatch h)⟩
  | resp conn r => exact resp_fwd h h0.1 h0.2
  | recv kind conn r fwd =>
    obtain ⟨h1, h2, h3, h4⟩ := h0
    have hkey : Key.Ok ⟨kind, conn, r.msg⟩ := ⟨h2, h3⟩
    simp only [step, recv]
    split
    · exact ⟨h.more (by simp), Good.none (by simp) (by simp)⟩
    · split
      · cases hf : find s ⟨kind, conn, r.msg⟩ with
        | some c => exact ⟨h.more (by simp), Good.none (by simp) (by simp)⟩
        | none =>
          exact gather_fwd (h.new hkey) (c := ⟨s.next, ⟨kind, conn, r.msg⟩, [], 1, none, false⟩)
            List.mem_cons_self h1 rfl r h4
      · rename_i hsom
        cases hf : find s ⟨kind, conn, r.msg⟩ with
        | none => exact ⟨h.more (by simp), Good.none (by simp) (by simp)⟩
        | some c =>
          obtain ⟨hc, ec⟩ := h.toWf.find_some hkey hf
          exact gather_fwd h hc (by rw [ec]; exact h1) (p2 _ _ _ _ rfl (by simpa using hsom) c hf) r h4

theorem run_fwd : ∀ (es : List (Ev α)) {s : St α} {os : List (Out α)}, FInv none s os → (∀ e ∈ es, e.Ok) →
    Polite valid s es → FInv none (run valid s es).1 (os ++ (run valid s es).2) ∧ Good os (run valid s es).2
  | [], s, os, h, _, _ => by
    simp only [run, List.append_nil]
    exact ⟨h, Good.none (fun h => nomatch h) (fun _ _ _ _ h => nomatch h)⟩
  | e :: es, s, os, h, he, hp => by
    obtain ⟨p1, p2, p3⟩ := hp
    have h0 := he e (by simp)
    have key := step_fwd (valid := valid) h h0 p1 p2
    obtain ⟨a, b⟩ := run_fwd es key.1 (fun x hx => he x (by simp [hx])) p3
    simp only [run]
    exact ⟨by rw [← List.append_assoc]; exact a, key.2.append b⟩

theorem init_finv : FInv none (init : St α) [] :=
  ⟨(init_inv ⟨.rem, 0, 0⟩).toWf, (fun _ h => nomatch h), (fun _ h => nomatch h), (fun _ h => nomatch h),
    (fun _ _ _ h => nomatch h)⟩

end Verif.ReqTab
