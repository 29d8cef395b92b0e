import Verif.ReqTab.Fwd

/-!
# Proofs: responses
-/

namespace Verif.ReqTab

variable {α : Type} {valid : List α → Bool}

/-! ## Numbers -/

theorem ask_msgNo (s : St α) (d : Nat) (org : Option Nat) : (ask s d org).msgNo = (s.msgNo + 1) % 2 ^ 32 := by
  unfold ask
  cases org <;> rfl

theorem forwards_numbers (k : Key) (id : Nat) : ∀ (ds : List Nat) (s : St α), s.msgNo + ds.length < 2 ^ 32 →
    (forwards k id ds s).1.msgNo = s.msgNo + ds.length ∧
    ((forwards k id ds s).2.filterMap Out.number).Nodup ∧
    ∀ n ∈ (forwards k id ds s).2.filterMap Out.number, s.msgNo ≤ n ∧ n < s.msgNo + ds.length
  | [], s, _ => ⟨rfl, List.nodup_nil, (fun _ h => nomatch h)⟩
  | d :: ds, s, h => by
    simp only [List.length_cons] at h ⊢
    have e : (ask s d (some id)).msgNo = s.msgNo + 1 := by rw [ask_msgNo, Nat.mod_eq_of_lt (by omega)]
    obtain ⟨h1, h2, h3⟩ := forwards_numbers k id ds (ask s d (some id)) (by omega)
    rw [e] at h1 h3
    simp only [forwards, List.filterMap_cons, Out.number, List.nodup_cons, List.mem_cons]
    refine ⟨by omega, ⟨fun hm => by have := h3 _ hm; omega, h2⟩, ?_⟩
    rintro n (rfl | hn)
    · omega
    · have := h3 n hn
      omega

theorem gather_numbers (s : St α) (c : Ctx α) (r : Rec α) (fwd : List Nat) (h : s.msgNo + fwd.length < 2 ^ 32) :
    s.msgNo ≤ (gather valid s c r fwd).1.msgNo ∧ (gather valid s c r fwd).1.msgNo ≤ s.msgNo + fwd.length ∧
    ((gather valid s c r fwd).2.filterMap Out.number).Nodup ∧
    ∀ n ∈ (gather valid s c r fwd).2.filterMap Out.number, s.msgNo ≤ n ∧ n < (gather valid s c r fwd).1.msgNo := by
  unfold gather
  simp only []
  split
  · exact ⟨Nat.le_refl _, Nat.le_add_right _ _, List.nodup_nil, (fun _ h => nomatch h)⟩
  · split
    · exact ⟨Nat.le_refl _, Nat.le_add_right _ _, List.nodup_nil, (fun _ h => nomatch h)⟩
    · obtain ⟨h1, h2, h3⟩ := forwards_numbers c.key c.id fwd
        (update (update s c.id fun d => { d with buf := c.buf ++ r.body }) c.id fun d => { d with host := true }) h
      have e : ∀ x : Out α, x.number = none → ∀ l : List (Out α), (x :: l).filterMap Out.number = l.filterMap Out.number := by
        intro x hx l
        rw [List.filterMap_cons, hx]
      have en : (if c.host = true then (.garbled c.key : Out α) else .handled c.key (c.buf ++ r.body)).number = none := by
        split <;> rfl
      rw [e _ en]
      refine ⟨?_, ?_, h2, ?_⟩
      · exact Nat.le_trans (Nat.le_add_right _ _) (Nat.le_of_eq h1.symm)
      · exact Nat.le_of_eq h1
      · intro n hn
        obtain ⟨a, b⟩ := h3 n hn
        exact ⟨a, Nat.lt_of_lt_of_le b (Nat.le_of_eq h1.symm)⟩

theorem resp_numbers (s : St α) (conn : Nat) (r : Rec α) :
    (resp valid s conn r).1.msgNo = s.msgNo ∧ (resp valid s conn r).2.filterMap Out.number = [] := by
  unfold resp
  split
  · exact ⟨rfl, rfl⟩
  · split
    · exact ⟨rfl, rfl⟩
    · simp only []
      split
      · exact ⟨rfl, rfl⟩
      · split
        · exact ⟨rfl, rfl⟩
        · split
          · exact ⟨rfl, rfl⟩
          · split <;> exact ⟨rfl, rfl⟩

theorem step_numbers (s : St α) (e : Ev α) (h : s.msgNo + e.asks < 2 ^ 32) :
    s.msgNo ≤ (step valid s e).1.msgNo ∧ (step valid s e).1.msgNo ≤ s.msgNo + e.asks ∧
    ((step valid s e).2.filterMap Out.number).Nodup ∧
    ∀ n ∈ (step valid s e).2.filterMap Out.number, s.msgNo ≤ n ∧ n < (step valid s e).1.msgNo := by
  have nil : ∀ m, s.msgNo ≤ s.msgNo ∧ s.msgNo ≤ s.msgNo + m ∧ ([] : List Nat).Nodup ∧
      ∀ n ∈ ([] : List Nat), s.msgNo ≤ n ∧ n < s.msgNo :=
    fun m => ⟨Nat.le_refl _, Nat.le_add_right _ _, List.nodup_nil, (fun _ h => nomatch h)⟩
  cases e with
  | own conn =>
    simp only [step, Ev.asks, List.filterMap_nil] at h ⊢
    rw [ask_msgNo, Nat.mod_eq_of_lt (by omega)]
    exact ⟨by omega, by omega, List.nodup_nil, (fun _ h => nomatch h)⟩
  | term conn => exact nil _
  | resp conn r =>
    obtain ⟨h1, h2⟩ := resp_numbers (valid := valid) s conn r
    simp only [step]
    rw [h1, h2]
    exact nil _
  | recv kind conn r fwd =>
    simp only [Ev.asks] at h ⊢
    simp only [step, recv]
    split
    · exact nil _
    · split
      · cases hf : find s ⟨kind, conn, r.msg⟩ with
        | some c => exact nil _
        | none => exact gather_numbers (alloc s ⟨kind, conn, r.msg⟩ none) _ r fwd h
      · cases hf : find s ⟨kind, conn, r.msg⟩ with
        | none => exact nil _
        | some c => exact gather_numbers s c r fwd h

theorem run_numbers : ∀ (es : List (Ev α)) (s : St α), s.msgNo + (es.map Ev.asks).sum < 2 ^ 32 →
    ((run valid s es).2.filterMap Out.number).Nodup ∧
    ∀ n ∈ (run valid s es).2.filterMap Out.number, s.msgNo ≤ n
  | [], _, _ => ⟨List.nodup_nil, (fun _ h => nomatch h)⟩
  | e :: es, s, h => by
    simp only [List.map_cons, List.sum_cons] at h
    obtain ⟨h1, h2, h3, h4⟩ := step_numbers (valid := valid) s e (by omega)
    obtain ⟨i1, i2⟩ := run_numbers es (step valid s e).1 (by omega)
    simp only [run, List.filterMap_append]
    refine ⟨?_, ?_⟩
    · rw [List.nodup_append]
      refine ⟨h3, i1, ?_⟩
      intro a ha b hb e
      have := (h4 a ha).2
      have := i2 b hb
      omega
    · intro n hn
      rcases List.mem_append.mp hn with hn | hn
      · exact (h4 n hn).1
      · exact Nat.le_trans h1 (i2 n hn)

/-! ## The bytes of a response -/

structure RInv (d n : Nat) (b : List α) (s : St α) : Prop extends Wf s where
  uniq : ∀ c ∈ s.tab, ∀ c' ∈ s.tab, c.key.kind = .loc → c.key = c'.key → c.id = c'.id
  ltNo : ∀ c ∈ s.tab, c.key.kind = .loc → c.key.msg < s.msgNo
  buf : ∀ c ∈ s.tab, c.key = ⟨.loc, d, n⟩ → c.buf = b

theorem RInv.sub {d n : Nat} {b : List α} {s t : St α} (h : RInv d n b s) (hw : Wf t) (hn : t.msgNo = s.msgNo)
    (hs : ∀ c ∈ t.tab, c.key.kind = .loc →
      ∃ c0 ∈ s.tab, c0.id = c.id ∧ c0.key = c.key ∧ (c.key = ⟨.loc, d, n⟩ → c0.buf = c.buf)) : RInv d n b t where
  toWf := hw
  uniq c hc c' hc' hk e := by
    obtain ⟨x, x1, x2, x3, _⟩ := hs c hc hk
    obtain ⟨y, y1, y2, y3, _⟩ := hs c' hc' (by rw [← e]; exact hk)
    rw [← x2, ← y2]
    exact h.uniq x x1 y y1 (by rw [x3]; exact hk) (by rw [x3, y3, e])
  ltNo c hc hk := by
    obtain ⟨x, x1, x2, x3, _⟩ := hs c hc hk
    rw [hn, ← x3]
    exact h.ltNo x x1 (by rw [x3]; exact hk)
  buf c hc e := by
    obtain ⟨x, x1, x2, x3, x4⟩ := hs c hc (by rw [e])
    rw [← x4 e]
    exact h.buf x x1 (by rw [x3, e])

/-- A change that leaves the bytes of the response. -/
theorem RInv.upd {d n : Nat} {b : List α} {s : St α} (h : RInv d n b s) (id : Nat) {f : Ctx α → Ctx α}
    (hi : ∀ c, (f c).id = c.id) (hk : ∀ c, (f c).key = c.key)
    (hb : ∀ c ∈ s.tab, c.id = id → c.key = ⟨.loc, d, n⟩ → (f c).buf = c.buf) : RInv d n b (update s id f) := by
  refine h.sub (h.toWf.update id hi hk) rfl ?_
  intro c hc _
  rcases mem_update.mp hc with ⟨h1, _⟩ | ⟨x, h1, h2, rfl⟩
  · exact ⟨c, h1, rfl, rfl, fun _ => rfl⟩
  · exact ⟨x, h1, (hi x).symm, (hk x).symm, fun e => (hb x h1 h2 (by rw [← hk x]; exact e)).symm⟩

theorem RInv.put {d n : Nat} {b : List α} {s : St α} (h : RInv d n b s) (id : Nat) : RInv d n b (put s id) := by
  refine h.sub (h.toWf.put id) rfl ?_
  intro c hc _
  rcases mem_put.mp hc with ⟨h1, _⟩ | ⟨x, h1, h2, _, rfl⟩
  · exact ⟨c, h1, rfl, rfl, fun _ => rfl⟩
  · exact ⟨x, h1, rfl, rfl, fun _ => rfl⟩

theorem RInv.term {d n : Nat} {b : List α} {s : St α} (h : RInv d n b s) (conn : Nat) : RInv d n b (term s conn) := by
  refine h.sub (h.toWf.term conn) rfl ?_
  intro c hc _
  exact ⟨c, (List.mem_filter.mp hc).1, rfl, rfl, fun _ => rfl⟩

theorem RInv.new {d n : Nat} {b : List α} {s : St α} (h : RInv d n b s) {k : Key} (hk : k.Ok) (hl : k.kind ≠ .loc) :
    RInv d n b (alloc s k none) := by
  refine h.sub (h.toWf.alloc hk none) rfl ?_
  intro c hc e
  rcases List.mem_cons.mp hc with rfl | hc
  · exact absurd e hl
  · exact ⟨c, hc, rfl, rfl, fun _ => rfl⟩

theorem RInv.ask {d n : Nat} {b : List α} {s : St α} (h : RInv d n b s) {conn : Nat} (hc : conn < 2 ^ 32)
    (hno : s.msgNo + 1 < 2 ^ 32) (hb : n < s.msgNo ∨ b = []) (org : Option Nat) : RInv d n b (ask s conn org) := by
  have key : ∀ s1 : St α, RInv d n b s1 → s1.msgNo = s.msgNo → RInv d n b
      { ReqTab.alloc s1 ⟨.loc, conn, s.msgNo⟩ org with msgNo := (s.msgNo + 1) % 2 ^ 32 } := by
    intro s1 h1 e1
    have hw := h1.toWf.alloc (k := ⟨.loc, conn, s.msgNo⟩) ⟨hc, h.no⟩ org
    have hlt : ∀ c ∈ s1.tab, c.key.kind = .loc → c.key.msg < s.msgNo := fun c hc hk => by
      rw [← e1]; exact h1.ltNo c hc hk
    rw [Nat.mod_eq_of_lt hno]
    refine ⟨⟨hw.key, hw.lt, hw.inj, hno⟩, ?_, ?_, ?_⟩
    · intro x hx y hy hk e
      rcases List.mem_cons.mp hx with rfl | hx <;> rcases List.mem_cons.mp hy with rfl | hy
      · rfl
      · have h1 := hlt y hy (by rw [← e])
        rw [← e] at h1
        exact absurd h1 (Nat.lt_irrefl _)
      · have h1 := hlt x hx (by rw [e])
        rw [e] at h1
        exact absurd h1 (Nat.lt_irrefl _)
      · exact h1.uniq x hx y hy hk e
    · intro x hx hk
      rcases List.mem_cons.mp hx with rfl | hx
      · exact Nat.lt_succ_self _
      · exact Nat.lt_succ_of_lt (hlt x hx hk)
    · intro x hx e
      rcases List.mem_cons.mp hx with rfl | hx
      · rcases hb with hb | hb
        · simp only [Key.mk.injEq] at e
          omega
        · exact hb.symm
      · exact h1.buf x hx e
  unfold ReqTab.ask
  cases org with
  | none => exact key s h rfl
  | some o => exact key _ (h.upd o (f := fun c => { c with refs := c.refs + 1 }) (fun _ => rfl) (fun _ => rfl)
      (fun _ _ _ _ => rfl)) rfl

theorem RInv.forwards {d n : Nat} {b : List α} (k : Key) (id : Nat) : ∀ (ds : List Nat) {s : St α}, RInv d n b s →
    (∀ x ∈ ds, x < 2 ^ 32) → s.msgNo + ds.length < 2 ^ 32 → (n < s.msgNo ∨ b = []) →
    RInv d n b (forwards k id ds s).1 ∧ s.msgNo ≤ (forwards k id ds s).1.msgNo
  | [], s, h, _, _, _ => ⟨h, Nat.le_refl _⟩
  | x :: ds, s, h, hd, hno, hb => by
    simp only [List.length_cons] at hno
    have h1 := h.ask (hd x (by simp)) (by omega) hb (some id)
    have e : (ReqTab.ask s x (some id)).msgNo = s.msgNo + 1 := by rw [ask_msgNo, Nat.mod_eq_of_lt (by omega)]
    obtain ⟨a, c⟩ := RInv.forwards k id ds h1 (fun y hy => hd y (by simp [hy])) (by omega) (hb.imp (by omega) _root_.id)
    exact ⟨a, by rw [e] at c; exact Nat.le_trans (Nat.le_succ _) c⟩

theorem RInv.gather {d n : Nat} {b : List α} {s : St α} (h : RInv d n b s) {c : Ctx α} (hc : c ∈ s.tab)
    (hl : c.key.kind ≠ .loc) (r : Rec α) {fwd : List Nat} (hf : ∀ x ∈ fwd, x < 2 ^ 32)
    (hno : s.msgNo + fwd.length < 2 ^ 32) (hb : n < s.msgNo ∨ b = []) : RInv d n b (gather valid s c r fwd).1 := by
  have h1 := h.upd c.id (f := fun d => { d with buf := c.buf ++ r.body }) (fun _ => rfl) (fun _ => rfl)
    (fun x hx e ek => by rw [h.eq hx hc e] at ek; rw [ek] at hl; exact absurd rfl hl)
  unfold ReqTab.gather
  simp only []
  split
  · exact h1
  · split
    · exact h1
    · have h2 := h1.upd c.id (f := fun d => { d with host := true }) (fun _ => rfl) (fun _ => rfl) (fun _ _ _ _ => rfl)
      exact (RInv.forwards c.key c.id fwd h2 hf hno hb).1.put c.id

/-- Events other than a record of this response. -/
theorem RInv.step {d n : Nat} {b : List α} {s : St α} (h : RInv d n b s) {e : Ev α} (he : e.Ok)
    (hno : s.msgNo + e.asks < 2 ^ 32) (hb : n < s.msgNo ∨ b = []) (ha : answers d n e = false) :
    RInv d n b (step valid s e).1 := by
  cases e with
  | own conn => exact h.ask he hno hb none
  | term conn => exact h.term conn
  | recv kind conn r fwd =>
    obtain ⟨h1, h2, h3, h4⟩ := he
    simp only [ReqTab.step, recv]
    split
    · exact h
    · split
      · cases hf : find s ⟨kind, conn, r.msg⟩ with
        | some c => exact h
        | none =>
          exact (h.new (k := ⟨kind, conn, r.msg⟩) ⟨h2, h3⟩ h1).gather (c := ⟨s.next, ⟨kind, conn, r.msg⟩, [], 1, none, false⟩)
            List.mem_cons_self h1 r h4 hno hb
      · cases hf : find s ⟨kind, conn, r.msg⟩ with
        | none => exact h
        | some c =>
          obtain ⟨hc, ec⟩ := h.toWf.find_some ⟨h2, h3⟩ hf
          exact h.gather hc (by rw [ec]; exact h1) r h4 hno hb
  | resp conn r =>
    simp only [ReqTab.step, resp]
    split
    · exact h
    · rename_i hm
      cases hf : find s ⟨.loc, conn, r.msg⟩ with
      | none => exact h
      | some c =>
        obtain ⟨hc, ec⟩ := h.toWf.find_some (k := ⟨.loc, conn, r.msg⟩) ⟨he.1, he.2⟩ hf
        have h1 := h.upd c.id (f := fun d => { d with buf := c.buf ++ r.body }) (fun _ => rfl) (fun _ => rfl)
          (fun x hx ex ek => by
            rw [h.eq hx hc ex, ec] at ek
            simp only [Key.mk.injEq, true_and] at ek
            simp only [answers, ek.1, ek.2, decide_true, Bool.and_true] at ha
            exact absurd ha hm)
        simp only []
        split
        · exact h1
        · split
          · exact h1
          · split
            · exact h1.put _
            · split
              · exact h1
              · exact (h1.put _).put _

/-- Only a record of the response leads to something being made of it. -/
theorem forwards_passed (d n : Nat) (k : Key) (id : Nat) : ∀ (ds : List Nat) (s : St α),
    (forwards k id ds s).2.filter (passed d n) = []
  | [], _ => rfl
  | x :: ds, s => by
    simp only [forwards, List.filter_cons, passed, Bool.false_eq_true, if_false]
    exact forwards_passed d n k id ds _

theorem gather_passed (d n : Nat) (s : St α) (c : Ctx α) (r : Rec α) (fwd : List Nat) :
    (gather valid s c r fwd).2.filter (passed d n) = [] := by
  unfold gather
  simp only []
  split
  · rfl
  · split
    · rfl
    · rw [List.filter_cons, forwards_passed]
      cases c.host <;> rfl

theorem step_passed {d n : Nat} (s : St α) {e : Ev α} (ha : answers d n e = false) :
    (step valid s e).2.filter (passed d n) = [] := by
  cases e with
  | own conn => rfl
  | term conn => rfl
  | recv kind conn r fwd =>
    simp only [step, recv]
    split
    · rfl
    · split
      · cases hf : find s ⟨kind, conn, r.msg⟩ with
        | some c => rfl
        | none => exact gather_passed d n _ _ r fwd
      · cases hf : find s ⟨kind, conn, r.msg⟩ with
        | none => rfl
        | some c => exact gather_passed d n _ _ r fwd
  | resp conn r =>
    simp only [step, resp]
    split
    · rfl
    · rename_i hm
      have hm' : r.marker = true := by simpa using hm
      have hne : (decide (conn = d) && decide (r.msg = n)) = false := by
        simpa [answers, hm'] using ha
      cases hf : find s ⟨.loc, conn, r.msg⟩ with
      | none => rfl
      | some c =>
        simp only []
        split
        · rfl
        · split
          · rfl
          · split
            · simp [passed, hne]
            · split
              · rfl
              · simp [passed, hne]

theorem run_passed {d n : Nat} : ∀ (es : List (Ev α)) (s : St α), (∀ e ∈ es, answers d n e = false) →
    (run valid s es).2.filter (passed d n) = []
  | [], _, _ => rfl
  | e :: es, s, h => by
    simp only [run, List.filter_append, step_passed s (h e (by simp)), List.nil_append]
    exact run_passed es _ fun x hx => h x (by simp [hx])

/-- Before there is any record of the response. -/
theorem run_before {d n : Nat} : ∀ (es : List (Ev α)) {s : St α}, RInv d n [] s → (∀ e ∈ es, e.Ok) →
    s.msgNo + (es.map Ev.asks).sum < 2 ^ 32 → (∀ e ∈ es, answers d n e = false) →
    RInv d n [] (run valid s es).1 ∧ (run valid s es).1.msgNo ≤ s.msgNo + (es.map Ev.asks).sum
  | [], _, h, _, _, _ => ⟨h, Nat.le_add_right _ _⟩
  | e :: es, s, h, he, hno, ha => by
    simp only [List.map_cons, List.sum_cons] at hno ⊢
    have h1 := h.step (valid := valid) (he e (by simp)) (by omega) (.inr rfl) (ha e (by simp))
    obtain ⟨_, h2, _⟩ := step_numbers (valid := valid) s e (by omega)
    obtain ⟨a, b⟩ := run_before es h1 (fun x hx => he x (by simp [hx])) (by omega) (fun x hx => ha x (by simp [hx]))
    simp only [run]
    exact ⟨a, by omega⟩

/-- A record of the response. -/
theorem step_answer {d n : Nat} {b : List α} {s : St α} {k : Key} (h : RInv d n b s) {r : Rec α} (hd : d < 2 ^ 32)
    (hn : n < 2 ^ 32) (hm : r.marker = true) (hr : r.msg = n)
    (hp : ∃ c ∈ s.tab, c.key = ⟨.loc, d, n⟩ ∧ ∃ y ∈ s.tab, c.org = some y.id ∧ y.key = k) :
    (r.eom = false → RInv d n (b ++ r.body) (step valid s (.resp d r)).1 ∧ (step valid s (.resp d r)).2 = []) ∧
    (r.eom = true → valid (b ++ r.body) = true → (step valid s (.resp d r)).2 = [.toOrg d n k (b ++ r.body)]) := by
  obtain ⟨c, hc, ec, y, hy, ey, ek⟩ := hp
  have hkey : Key.Ok ⟨.loc, d, n⟩ := ⟨hd, hn⟩
  have hf : find s ⟨.loc, d, n⟩ = some c := by
    cases hq : find s ⟨.loc, d, n⟩ with
    | none => exact absurd ec (h.toWf.find_none hkey hq c hc)
    | some x =>
      obtain ⟨hx, ex⟩ := h.toWf.find_some hkey hq
      rw [h.eq hx hc (h.uniq x hx c hc (by rw [ex]) (by rw [ex, ec]))]
  have hfy : s.tab.find? (fun x => x.id = y.id) = some y := by
    cases hq : s.tab.find? fun x => x.id = y.id with
    | none =>
      have := List.find?_eq_none.mp hq y hy
      simp at this
    | some x' =>
      have a1 := List.mem_of_find?_eq_some hq
      have a2 := List.find?_some hq
      rw [h.eq a1 hy (by simpa using a2)]
  have hb := h.buf c hc ec
  simp only [step, resp, hm, hr, hf, ey, hfy, hb, ek, Bool.true_eq_false, if_false]
  constructor
  · intro e
    simp only [e, if_true]
    refine ⟨⟨?_, ?_, ?_, ?_⟩, trivial⟩
    · exact h.toWf.update c.id (fun _ => rfl) (fun _ => rfl)
    · intro x hx z hz hk exz
      have hxs : ∃ x0 ∈ s.tab, x0.id = x.id ∧ x0.key = x.key := by
        rcases mem_update.mp hx with ⟨h1, _⟩ | ⟨w, h1, _, rfl⟩
        · exact ⟨x, h1, rfl, rfl⟩
        · exact ⟨w, h1, rfl, rfl⟩
      have hzs : ∃ x0 ∈ s.tab, x0.id = z.id ∧ x0.key = z.key := by
        rcases mem_update.mp hz with ⟨h1, _⟩ | ⟨w, h1, _, rfl⟩
        · exact ⟨z, h1, rfl, rfl⟩
        · exact ⟨w, h1, rfl, rfl⟩
      obtain ⟨x0, a1, a2, a3⟩ := hxs
      obtain ⟨z0, b1, b2, b3⟩ := hzs
      rw [← a2, ← b2]
      exact h.uniq x0 a1 z0 b1 (by rw [a3]; exact hk) (by rw [a3, b3, exz])
    · intro x hx hk
      rcases mem_update.mp hx with ⟨h1, _⟩ | ⟨w, h1, _, rfl⟩
      · exact h.ltNo x h1 hk
      · exact h.ltNo w h1 hk
    · intro x hx exk
      rcases mem_update.mp hx with ⟨h1, h2⟩ | ⟨w, h1, _, rfl⟩
      · exact absurd (h.uniq x h1 c hc (by rw [exk]) (by rw [exk, ec])) h2
      · rfl
  · intro e hv
    simp only [e, hv, Bool.true_eq_false, if_false]

/-- From when it was asked for. -/
theorem run_answer {d n : Nat} {k : Key} (hd : d < 2 ^ 32) (hn : n < 2 ^ 32) : ∀ (es : List (Ev α)) {b : List α} {s : St α}
    {os : List (Out α)} {rs : List (Rec α)}, FInv none s os → RInv d n b s → (∀ e ∈ es, e.Ok) → Polite valid s es →
    s.msgNo + (es.map Ev.asks).sum < 2 ^ 32 → .forward k d n ∈ os → os.filter (passed d n) = [] →
    es.filter (answers d n) = rs.map (.resp d) → Ends rs → valid (b ++ (rs.map (·.body)).flatten) = true →
    (run valid s es).2.filter (passed d n) = [.toOrg d n k (b ++ (rs.map (·.body)).flatten)]
  | [], b, s, os, rs, _, _, _, _, _, _, _, hrs, hends, _ => by
    cases rs with
    | nil => exact absurd hends (fun h => h)
    | cons r rs => simp at hrs
  | e :: es, b, s, os, rs, h, hr, he, hp, hno, hf, hos, hrs, hends, hv => by
    simp only [List.map_cons, List.sum_cons] at hno
    have hpend : ∃ c ∈ s.tab, c.key = ⟨.loc, d, n⟩ ∧ ∃ y ∈ s.tab, c.org = some y.id ∧ y.key = k := by
      rcases h.done k d n hf with ⟨t, ht⟩ | h1
      · exfalso
        have : Out.toOrg d n k t ∈ os.filter (passed d n) := List.mem_filter.mpr ⟨ht, by simp [passed]⟩
        rw [hos] at this
        cases this
      · exact h1
    have hlt : n < s.msgNo := by
      obtain ⟨c, hc, ec, _⟩ := hpend
      have := hr.ltNo c hc (by rw [ec])
      rw [ec] at this
      exact this
    obtain ⟨p1, p2, p3⟩ := hp
    obtain ⟨q1, q2, _⟩ := step_numbers (valid := valid) s e (by omega)
    have hstep := step_fwd (valid := valid) h (he e (by simp)) p1 p2
    have hf' : .forward k d n ∈ os ++ (step valid s e).2 := List.mem_append_left _ hf
    by_cases ha : answers d n e = true
    · rw [List.filter_cons, if_pos ha] at hrs
      cases rs with
      | nil => cases hrs
      | cons r rs =>
        simp only [List.map_cons, List.cons.injEq] at hrs
        obtain ⟨rfl, hrs⟩ := hrs
        simp only [answers, decide_true, Bool.and_true, Bool.and_eq_true, decide_eq_true_eq] at ha
        obtain ⟨s1, s2⟩ := step_answer (valid := valid) hr hd hn ha.1 ha.2 hpend
        cases rs with
        | nil =>
          simp only [List.map_cons, List.map_nil, List.flatten_cons, List.flatten_nil, List.append_nil] at hv ⊢
          simp only [run, s2 hends hv]
          rw [List.filter_append, run_passed es _ (by
            intro x hx
            cases hxx : answers d n x with
            | false => rfl
            | true =>
              have : x ∈ es.filter (answers d n) := List.mem_filter.mpr ⟨hx, hxx⟩
              rw [hrs] at this
              cases this)]
          simp [passed]
        | cons r2 rs =>
          obtain ⟨t1, t2⟩ := s1 hends.1
          rw [t2, List.append_nil] at hstep
          have := run_answer hd hn es hstep.1 t1 (fun x hx => he x (by simp [hx])) p3 (by omega) hf hos hrs hends.2
            (by simpa using hv)
          simp only [run, t2, List.nil_append]
          rw [this]
          simp
    · have ha' : answers d n e = false := by simpa using ha
      rw [List.filter_cons, if_neg ha] at hrs
      have := run_answer hd hn es hstep.1 (hr.step (valid := valid) (he e (by simp)) (by omega) (.inl hlt) ha')
        (fun x hx => he x (by simp [hx])) p3 (by omega) hf'
        (by rw [List.filter_append, hos, step_passed s ha']; rfl) hrs hends hv
      simp only [run, List.filter_append, step_passed s ha', List.nil_append]
      exact this

theorem run_append : ∀ (a : List (Ev α)) (b : List (Ev α)) (s : St α),
    run valid s (a ++ b) = ((run valid (run valid s a).1 b).1, (run valid s a).2 ++ (run valid (run valid s a).1 b).2)
  | [], _, _ => rfl
  | e :: a, b, s => by
    simp only [List.cons_append, run]
    rw [run_append a b]
    simp

theorem polite_append : ∀ (a : List (Ev α)) (b : List (Ev α)) (s : St α),
    Polite valid s (a ++ b) → Polite valid s a ∧ Polite valid (run valid s a).1 b
  | [], _, _, h => ⟨trivial, h⟩
  | e :: a, b, s, ⟨h1, h2, h3⟩ => by
    obtain ⟨i1, i2⟩ := polite_append a b _ h3
    exact ⟨⟨h1, h2, i1⟩, i2⟩

theorem init_rinv (d n : Nat) : RInv d n [] (init : St α) :=
  ⟨(init_inv ⟨.rem, 0, 0⟩).toWf, (fun _ h => nomatch h), (fun _ h => nomatch h), (fun _ h => nomatch h)⟩

end Verif.ReqTab
