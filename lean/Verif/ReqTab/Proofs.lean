import Verif.ReqTab.Spec

/-!
# Proofs: one request among others
-/

namespace Verif.ReqTab

variable {α : Type} {valid : List α → Bool}

/-! ## Keys -/

def Key.Ok (k : Key) : Prop := k.conn < 2 ^ 32 ∧ k.msg < 2 ^ 32

theorem toInt_zero {a b : Nat} (ha : a < 2 ^ 32) (hb : b < 2 ^ 32) : toInt ((a : Int) - b) = 0 ↔ a = b := by
  unfold toInt
  omega

theorem num_inj {a b : Kind} (h : a.num - b.num = 0) : a = b := by
  cases a <;> cases b <;> first | rfl | (simp [Kind.num] at h)

theorem cmp_zero {a b : Key} (ha : a.Ok) (hb : b.Ok) : cmp a b = 0 ↔ a = b := by
  unfold cmp
  by_cases h1 : a.kind.num - b.kind.num = 0
  · rw [if_neg (by omega)]
    have hk := num_inj h1
    by_cases h2 : toInt ((a.conn : Int) - b.conn) = 0
    · rw [if_neg (by omega), toInt_zero ha.2 hb.2]
      have hc := (toInt_zero ha.1 hb.1).mp h2
      cases a; cases b; simp_all
    · rw [if_pos h2]
      refine ⟨fun h => absurd h h2, ?_⟩
      rintro rfl
      exact absurd ((toInt_zero ha.1 ha.1).mpr rfl) h2
  · rw [if_pos h1]
    refine ⟨fun h => absurd h h1, ?_⟩
    rintro rfl
    omega

/-! ## States -/

structure Wf (s : St α) : Prop where
  key : ∀ c ∈ s.tab, c.key.Ok
  lt : ∀ c ∈ s.tab, c.id < s.next
  inj : (s.tab.map (·.id)).Nodup
  no : s.msgNo < 2 ^ 32

theorem Wf.eq {s : St α} (h : Wf s) {c d : Ctx α} (hc : c ∈ s.tab) (hd : d ∈ s.tab) (e : c.id = d.id) : c = d := by
  have := h.inj
  clear h
  revert this
  generalize s.tab = l at *
  induction l with
  | nil => cases hc
  | cons x l ih =>
    intro hn
    simp only [List.map_cons, List.nodup_cons, List.mem_map, not_exists, not_and] at hn
    rcases List.mem_cons.mp hc with h1 | h1 <;> rcases List.mem_cons.mp hd with h2 | h2
    · rw [h1, h2]
    · exact absurd (by rw [← e, h1]) (hn.1 d h2)
    · exact absurd (by rw [e, h2]) (hn.1 c h1)
    · exact ih h1 h2 hn.2

theorem Wf.find_some {s : St α} (h : Wf s) {k : Key} (hk : k.Ok) {c : Ctx α} (hf : find s k = some c) :
    c ∈ s.tab ∧ c.key = k := by
  unfold find at hf
  have h1 := List.mem_of_find?_eq_some hf
  have h2 := List.find?_some hf
  exact ⟨h1, (cmp_zero (h.key c h1) hk).mp (by simpa using h2)⟩

theorem Wf.find_none {s : St α} (h : Wf s) {k : Key} (hk : k.Ok) (hf : find s k = none) :
    ∀ c ∈ s.tab, c.key ≠ k := by
  intro c hc e
  unfold find at hf
  have := List.find?_eq_none.mp hf c hc
  simp only [decide_eq_true_eq] at this
  exact this ((cmp_zero (h.key c hc) hk).mpr e)

theorem map_ids {s : St α} (id : Nat) (f : Ctx α → Ctx α) (hf : ∀ c, (f c).id = c.id) :
    ((update s id f).tab.map (·.id)) = s.tab.map (·.id) := by
  unfold update
  simp only [List.map_map]
  apply List.map_congr_left
  intro c _
  simp only [Function.comp]
  split
  · exact hf c
  · rfl

theorem mem_update {s : St α} {id : Nat} {f : Ctx α → Ctx α} {c : Ctx α} :
    c ∈ (update s id f).tab ↔ (c ∈ s.tab ∧ c.id ≠ id) ∨ ∃ d ∈ s.tab, d.id = id ∧ c = f d := by
  unfold update
  simp only [List.mem_map]
  constructor
  · rintro ⟨d, hd, e⟩
    split at e
    · exact .inr ⟨d, hd, by assumption, e.symm⟩
    · subst e; exact .inl ⟨hd, by assumption⟩
  · rintro (⟨h1, h2⟩ | ⟨d, h1, h2, rfl⟩)
    · exact ⟨c, h1, by rw [if_neg h2]⟩
    · exact ⟨d, h1, by rw [if_pos h2]⟩

theorem mem_put {s : St α} {id : Nat} {c : Ctx α} :
    c ∈ (put s id).tab ↔ (c ∈ s.tab ∧ c.id ≠ id) ∨ ∃ d ∈ s.tab, d.id = id ∧ 1 < d.refs ∧ c = { d with refs := d.refs - 1 } := by
  unfold put
  simp only [List.mem_filterMap]
  constructor
  · rintro ⟨d, hd, e⟩
    split at e
    · split at e
      · cases e
      · cases e
        exact .inr ⟨d, hd, by assumption, by omega, rfl⟩
    · cases e; exact .inl ⟨hd, by assumption⟩
  · rintro (⟨h1, h2⟩ | ⟨d, h1, h2, h3, rfl⟩)
    · exact ⟨c, h1, by rw [if_neg h2]⟩
    · exact ⟨d, h1, by rw [if_pos h2, if_neg (by omega)]⟩

theorem Wf.update {s : St α} (h : Wf s) (id : Nat) {f : Ctx α → Ctx α} (hi : ∀ c, (f c).id = c.id)
    (hk : ∀ c, (f c).key = c.key) : Wf (update s id f) where
  key c hc := by
    rcases mem_update.mp hc with ⟨h1, _⟩ | ⟨d, h1, _, rfl⟩
    · exact h.key c h1
    · rw [hk]; exact h.key d h1
  lt c hc := by
    rcases mem_update.mp hc with ⟨h1, _⟩ | ⟨d, h1, _, rfl⟩
    · exact h.lt c h1
    · rw [hi]; exact h.lt d h1
  inj := by rw [map_ids id f hi]; exact h.inj
  no := h.no

theorem put_ids (s : St α) (id : Nat) : ((put s id).tab.map (·.id)).Sublist (s.tab.map (·.id)) := by
  unfold put
  simp only
  generalize s.tab = l
  induction l with
  | nil => exact .slnil
  | cons c l ih =>
    rw [List.filterMap_cons]
    by_cases h : c.id = id
    · rw [if_pos h]
      split
      · exact ih.cons _
      · rename_i heq
        split at heq
        · cases heq
        · cases heq
          exact ih.cons_cons _
    · rw [if_neg h]
      exact ih.cons_cons _

theorem Wf.put {s : St α} (h : Wf s) (id : Nat) : Wf (put s id) where
  key c hc := by
    rcases mem_put.mp hc with ⟨h1, _⟩ | ⟨d, h1, _, _, rfl⟩
    · exact h.key c h1
    · exact h.key d h1
  lt c hc := by
    rcases mem_put.mp hc with ⟨h1, _⟩ | ⟨d, h1, _, _, rfl⟩
    · exact h.lt c h1
    · exact h.lt d h1
  inj := h.inj.sublist (put_ids s id)
  no := h.no

theorem Wf.alloc {s : St α} (h : Wf s) {k : Key} (hk : k.Ok) (org : Option Nat) : Wf (alloc s k org) where
  key c hc := by
    rcases List.mem_cons.mp hc with rfl | hc
    · exact hk
    · exact h.key c hc
  lt c hc := by
    rcases List.mem_cons.mp hc with rfl | hc
    · exact Nat.lt_succ_self _
    · exact Nat.lt_succ_of_lt (h.lt c hc)
  inj := by
    unfold ReqTab.alloc
    simp only [List.map_cons, List.nodup_cons, List.mem_map, not_exists, not_and]
    exact ⟨fun x hx e => absurd (h.lt x hx) (by omega), h.inj⟩
  no := h.no

theorem Wf.term {s : St α} (h : Wf s) (conn : Nat) : Wf (term s conn) where
  key c hc := h.key c (List.mem_filter.mp hc).1
  lt c hc := h.lt c (List.mem_filter.mp hc).1
  inj := h.inj.sublist (List.filter_sublist.map _)
  no := h.no

theorem Wf.ask {s : St α} (h : Wf s) {conn : Nat} (hc : conn < 2 ^ 32) (org : Option Nat) : Wf (ask s conn org) := by
  have hk : Key.Ok ⟨.loc, conn, s.msgNo⟩ := ⟨hc, h.no⟩
  have h1 : ∀ s1 : St α, Wf s1 → Wf { ReqTab.alloc s1 ⟨.loc, conn, s.msgNo⟩ org with msgNo := (s.msgNo + 1) % 2 ^ 32 } := by
    intro s1 hs
    have := hs.alloc hk org
    exact ⟨this.key, this.lt, this.inj, Nat.mod_lt _ (by decide)⟩
  unfold ReqTab.ask
  cases org with
  | none => exact h1 s h
  | some o => exact h1 _ (h.update o (fun _ => rfl) (fun _ => rfl))

/-! ## One key -/

/-- `k` is the key of at most one request, which has no answers outstanding. -/
structure Inv (k : Key) (s : St α) : Prop extends Wf s where
  one : ∀ c ∈ s.tab, ∀ d ∈ s.tab, c.key = k → d.key = k → c = d
  plain : ∀ c ∈ s.tab, c.key = k → c.refs = 1 ∧ c.host = false ∧ c.org = none
  org : ∀ c ∈ s.tab, ∀ o, c.org = some o → o < s.next ∧ ∀ d ∈ s.tab, d.id = o → d.key ≠ k

/-- The contexts of `k` are the same. -/
def Same (k : Key) (s t : St α) : Prop := ∀ c, c.key = k → (c ∈ t.tab ↔ c ∈ s.tab)

theorem Same.rfl {k : Key} {s : St α} : Same k s s := fun _ _ => Iff.rfl
theorem Same.trans {k : Key} {s t u : St α} (h1 : Same k s t) (h2 : Same k t u) : Same k s u :=
  fun c hc => (h2 c hc).trans (h1 c hc)

theorem Inv.update {k : Key} {s : St α} (h : Inv k s) {id : Nat} {f : Ctx α → Ctx α}
    (hi : ∀ c, (f c).id = c.id) (hk : ∀ c, (f c).key = c.key) (ho : ∀ c, (f c).org = c.org)
    (hid : ∀ c ∈ s.tab, c.id = id → c.key ≠ k) : Inv k (update s id f) ∧ Same k s (update s id f) := by
  have hm : ∀ c, c.key = k → (c ∈ (ReqTab.update s id f).tab ↔ c ∈ s.tab) := by
    intro c hc
    rw [mem_update]
    constructor
    · rintro (⟨h1, _⟩ | ⟨d, h1, h2, rfl⟩)
      · exact h1
      · exact absurd ((hk d).symm.trans hc) (hid d h1 h2)
    · intro h1
      exact .inl ⟨h1, fun e => hid c h1 e hc⟩
  refine ⟨⟨h.toWf.update id hi hk, ?_, ?_, ?_⟩, hm⟩
  · intro c hc d hd ec ed
    exact h.one c ((hm c ec).mp hc) d ((hm d ed).mp hd) ec ed
  · intro c hc ec
    exact h.plain c ((hm c ec).mp hc) ec
  · intro c hc o eo
    have : ∃ c' ∈ s.tab, c'.org = some o := by
      rcases mem_update.mp hc with ⟨h1, _⟩ | ⟨d, h1, _, rfl⟩
      · exact ⟨c, h1, eo⟩
      · exact ⟨d, h1, by rw [← ho]; exact eo⟩
    obtain ⟨c', h1, h2⟩ := this
    obtain ⟨h3, h4⟩ := h.org c' h1 o h2
    refine ⟨h3, ?_⟩
    intro d hd ed ek
    exact h4 d ((hm d ek).mp hd) ed ek

theorem Inv.put {k : Key} {s : St α} (h : Inv k s) {id : Nat}
    (hid : ∀ c ∈ s.tab, c.id = id → c.key ≠ k) : Inv k (put s id) ∧ Same k s (put s id) := by
  have hm : ∀ c, c.key = k → (c ∈ (ReqTab.put s id).tab ↔ c ∈ s.tab) := by
    intro c hc
    rw [mem_put]
    constructor
    · rintro (⟨h1, _⟩ | ⟨d, h1, h2, _, rfl⟩)
      · exact h1
      · exact absurd hc (hid d h1 h2)
    · intro h1
      exact .inl ⟨h1, fun e => hid c h1 e hc⟩
  refine ⟨⟨h.toWf.put id, ?_, ?_, ?_⟩, hm⟩
  · intro c hc d hd ec ed
    exact h.one c ((hm c ec).mp hc) d ((hm d ed).mp hd) ec ed
  · intro c hc ec
    exact h.plain c ((hm c ec).mp hc) ec
  · intro c hc o eo
    have : ∃ c' ∈ s.tab, c'.org = some o := by
      rcases mem_put.mp hc with ⟨h1, _⟩ | ⟨d, h1, _, _, rfl⟩
      · exact ⟨c, h1, eo⟩
      · exact ⟨d, h1, eo⟩
    obtain ⟨c', h1, h2⟩ := this
    obtain ⟨h3, h4⟩ := h.org c' h1 o h2
    refine ⟨h3, ?_⟩
    intro d hd ed ek
    exact h4 d ((hm d ek).mp hd) ed ek

theorem Inv.alloc {k k' : Key} {s : St α} (h : Inv k s) (hk : k'.Ok) (hne : k' ≠ k) {org : Option Nat}
    (ho : ∀ o, org = some o → o < s.next ∧ ∀ d ∈ s.tab, d.id = o → d.key ≠ k) :
    Inv k (alloc s k' org) ∧ Same k s (alloc s k' org) := by
  have hm : ∀ c, c.key = k → (c ∈ (ReqTab.alloc s k' org).tab ↔ c ∈ s.tab) := by
    intro c hc
    unfold ReqTab.alloc
    simp only [List.mem_cons, or_iff_right_iff_imp]
    rintro rfl
    exact absurd hc hne
  refine ⟨⟨h.toWf.alloc hk org, ?_, ?_, ?_⟩, hm⟩
  · intro c hc d hd ec ed
    exact h.one c ((hm c ec).mp hc) d ((hm d ed).mp hd) ec ed
  · intro c hc ec
    exact h.plain c ((hm c ec).mp hc) ec
  · intro c hc o eo
    have hlt : ∀ x, x < s.next → x < (ReqTab.alloc s k' org).next := fun x hx => Nat.lt_succ_of_lt hx
    have : o < s.next ∧ ∀ d ∈ s.tab, d.id = o → d.key ≠ k := by
      rcases List.mem_cons.mp hc with rfl | hc
      · exact ho o eo
      · exact h.org c hc o eo
    refine ⟨hlt _ this.1, ?_⟩
    intro d hd ed ek
    exact this.2 d ((hm d ek).mp hd) ed ek

theorem Inv.ask {k : Key} {s : St α} (h : Inv k s) (hk : k.kind ≠ .loc) {conn : Nat} (hc : conn < 2 ^ 32)
    {org : Option Nat} (ho : ∀ o, org = some o → o < s.next ∧ ∀ d ∈ s.tab, d.id = o → d.key ≠ k) :
    Inv k (ask s conn org) ∧ Same k s (ask s conn org) := by
  have hkey : Key.Ok ⟨.loc, conn, s.msgNo⟩ := ⟨hc, h.no⟩
  have hne : (⟨.loc, conn, s.msgNo⟩ : Key) ≠ k := by rintro rfl; exact hk rfl
  have h1 : ∀ s1 : St α, Inv k s1 → Same k s s1 → s1.next = s.next →
      Inv k { ReqTab.alloc s1 ⟨.loc, conn, s.msgNo⟩ org with msgNo := (s.msgNo + 1) % 2 ^ 32 } ∧
      Same k s { ReqTab.alloc s1 ⟨.loc, conn, s.msgNo⟩ org with msgNo := (s.msgNo + 1) % 2 ^ 32 } := by
    intro s1 hs hsm hn
    obtain ⟨a, b⟩ := hs.alloc hkey hne (org := org) (by
      intro o e
      obtain ⟨x, y⟩ := ho o e
      exact ⟨by omega, fun d hd ed ek => y d ((hsm d ek).mp hd) ed ek⟩)
    exact ⟨⟨⟨a.key, a.lt, a.inj, Nat.mod_lt _ (by decide)⟩, a.one, a.plain, a.org⟩, hsm.trans b⟩
  unfold ReqTab.ask
  cases org with
  | none => exact h1 s h Same.rfl rfl
  | some o =>
    obtain ⟨a, b⟩ := h.update (f := fun c => { c with refs := c.refs + 1 }) (fun _ => rfl) (fun _ => rfl)
      (fun _ => rfl) (ho o rfl).2
    exact h1 _ a b rfl

theorem ask_next (s : St α) (conn : Nat) (org : Option Nat) : (ask s conn org).next = s.next + 1 := by
  unfold ask
  cases org <;> rfl

theorem Inv.forwards {k : Key} (hk : k.kind ≠ .loc) (k' : Key) (hne : k' ≠ k) (id : Nat) :
    ∀ (fwd : List Nat) {s : St α}, Inv k s → (∀ d ∈ fwd, d < 2 ^ 32) →
      (id < s.next ∧ ∀ d ∈ s.tab, d.id = id → d.key ≠ k) →
      Inv k (forwards k' id fwd s).1 ∧ Same k s (forwards k' id fwd s).1 ∧ about k (forwards k' id fwd s).2 = [] ∧
      s.next ≤ (forwards k' id fwd s).1.next
  | [], s, h, _, _ => ⟨h, Same.rfl, rfl, Nat.le_refl _⟩
  | d :: ds, s, h, hd, hi => by
    obtain ⟨h1, h2⟩ := h.ask hk (hd d (by simp)) (org := some id) (by rintro o ⟨⟩; exact hi)
    have hn := ask_next s d (some id)
    obtain ⟨a, b, c, e⟩ := Inv.forwards hk k' hne id ds h1 (fun x hx => hd x (by simp [hx]))
      ⟨by omega, fun x hx ex ek => hi.2 x ((h2 x ek).mp hx) ex ek⟩
    refine ⟨a, h2.trans b, ?_, by simp only [ReqTab.forwards]; omega⟩
    simp only [ReqTab.forwards, about, List.filter_cons, Out.about, hne, decide_false, Bool.false_eq_true, if_false]
    exact c

theorem gather_other {k : Key} (hk : k.kind ≠ .loc) {s : St α} (h : Inv k s) {c : Ctx α} (hc : c ∈ s.tab)
    (hne : c.key ≠ k) (r : Rec α) {fwd : List Nat} (hf : ∀ d ∈ fwd, d < 2 ^ 32) :
    Inv k (gather valid s c r fwd).1 ∧ Same k s (gather valid s c r fwd).1 ∧
      about k (gather valid s c r fwd).2 = [] := by
  have hid : ∀ d ∈ s.tab, d.id = c.id → d.key ≠ k := by
    intro d hd e
    rw [h.eq hd hc e]
    exact hne
  obtain ⟨h1, s1⟩ := h.update (f := fun d => { d with buf := c.buf ++ r.body }) (fun _ => rfl) (fun _ => rfl)
    (fun _ => rfl) hid
  unfold gather
  simp only []
  split
  · exact ⟨h1, s1, rfl⟩
  · split
    · exact ⟨h1, s1, by simp [about, Out.about, hne]⟩
    · have hid1 : ∀ d ∈ (update s c.id fun d => { d with buf := c.buf ++ r.body }).tab, d.id = c.id → d.key ≠ k :=
        fun d hd e ek => hid d ((s1 d ek).mp hd) e ek
      obtain ⟨h2, s2⟩ := h1.update (f := fun d => { d with host := true }) (fun _ => rfl) (fun _ => rfl)
        (fun _ => rfl) hid1
      obtain ⟨h3, s3, e3, _⟩ := Inv.forwards hk c.key hne c.id fwd h2 hf
        ⟨h.lt c hc, fun d hd e ek => hid1 d ((s2 d ek).mp hd) e ek⟩
      obtain ⟨h4, s4⟩ := h3.put (id := c.id)
        (fun d hd e ek => hid1 d ((s2 d ek).mp ((s3 d ek).mp hd)) e ek)
      refine ⟨h4, ((s1.trans s2).trans s3).trans s4, ?_⟩
      unfold about at e3 ⊢
      rw [List.filter_cons]
      cases c.host <;> simp [Out.about, hne, e3]

theorem step_other {k : Key} (hk : k.kind ≠ .loc) {s : St α} (h : Inv k s) {e : Ev α} (he : e.Ok)
    (hn : concerns k e = false) :
    Inv k (step valid s e).1 ∧ Same k s (step valid s e).1 ∧ about k (step valid s e).2 = [] := by
  cases e with
  | own conn =>
    obtain ⟨a, b⟩ := h.ask hk he (org := none) (fun _ h => nomatch h)
    exact ⟨a, b, rfl⟩
  | term conn =>
    have hc : conn ≠ k.conn := by simpa [concerns] using hn
    refine ⟨⟨h.toWf.term conn, ?_, ?_, ?_⟩, ?_, rfl⟩
    · intro c hc d hd
      exact h.one c (List.mem_filter.mp hc).1 d (List.mem_filter.mp hd).1
    · intro c hc
      exact h.plain c (List.mem_filter.mp hc).1
    · intro c hc o eo
      obtain ⟨a, b⟩ := h.org c (List.mem_filter.mp hc).1 o eo
      exact ⟨a, fun d hd => b d (List.mem_filter.mp hd).1⟩
    · intro c ec
      simp only [step, term, List.mem_filter, and_iff_left_iff_imp]
      intro _
      rw [ec]
      simpa using fun e => hc e.symm
  | recv kind conn r fwd =>
    obtain ⟨h1, h2, h3, h4⟩ := he
    by_cases hm : r.marker = false
    · simp only [step, recv, hm, if_true]
      exact ⟨h, Same.rfl, rfl⟩
    · have hne : (⟨kind, conn, r.msg⟩ : Key) ≠ k := by
        rintro rfl
        simp [concerns] at hn
        exact hm hn
      have hkey : Key.Ok ⟨kind, conn, r.msg⟩ := ⟨h2, h3⟩
      have hm' : r.marker = true := by simpa using hm
      simp only [step, recv, hm', if_false, Bool.true_eq_false]
      split
      · cases hf : find s ⟨kind, conn, r.msg⟩ with
        | some c =>
          exact ⟨h, Same.rfl, by simp [about, Out.about, hne]⟩
        | none =>
          obtain ⟨a, b⟩ := h.alloc hkey hne (org := none) (fun _ h => nomatch h)
          obtain ⟨x, y, z⟩ := gather_other (valid := valid) hk a (c := ⟨s.next, ⟨kind, conn, r.msg⟩, [], 1, none, false⟩)
            (List.mem_cons_self) hne r h4
          exact ⟨x, b.trans y, z⟩
      · cases hf : find s ⟨kind, conn, r.msg⟩ with
        | none => exact ⟨h, Same.rfl, by simp [about, Out.about, hne]⟩
        | some c =>
          obtain ⟨hc, ec⟩ := h.toWf.find_some hkey hf
          exact gather_other hk h hc (by rw [ec]; exact hne) r h4
  | resp conn r =>
    obtain ⟨h1, h2⟩ := he
    have hkey : Key.Ok ⟨.loc, conn, r.msg⟩ := ⟨h1, h2⟩
    simp only [step, resp]
    split
    · exact ⟨h, Same.rfl, rfl⟩
    · cases hf : find s ⟨.loc, conn, r.msg⟩ with
      | none => exact ⟨h, Same.rfl, rfl⟩
      | some c =>
        simp only []
        obtain ⟨hc, ec⟩ := h.toWf.find_some hkey hf
        have hne : c.key ≠ k := by
          intro e
          rw [← e, ec] at hk
          exact hk rfl
        have hid : ∀ d ∈ s.tab, d.id = c.id → d.key ≠ k := by
          intro d hd e
          rw [h.eq hd hc e]
          exact hne
        obtain ⟨h1, s1⟩ := h.update (f := fun d => { d with buf := c.buf ++ r.body }) (fun _ => rfl) (fun _ => rfl)
          (fun _ => rfl) hid
        split
        · exact ⟨h1, s1, rfl⟩
        · split
          · exact ⟨h1, s1, rfl⟩
          · cases ho : c.org with
            | none =>
              simp only []
              obtain ⟨h2, s2⟩ := h1.put (id := c.id) (fun d hd e ek => hid d ((s1 d ek).mp hd) e ek)
              exact ⟨h2, s1.trans s2, rfl⟩
            | some o =>
              simp only []
              have hoo := (h.org c hc o ho).2
              cases hx : s.tab.find? fun x => x.id = o with
              | none => exact ⟨h1, s1, rfl⟩
              | some x =>
                simp only []
                obtain ⟨h2, s2⟩ := h1.put (id := o) (fun d hd e ek => hoo d ((s1 d ek).mp hd) e ek)
                obtain ⟨h3, s3⟩ := h2.put (id := c.id)
                  (fun d hd e ek => hid d ((s1 d ek).mp ((s2 d ek).mp hd)) e ek)
                refine ⟨h3, (s1.trans s2).trans s3, ?_⟩
                have e1 := List.find?_some hx
                have e2 := hoo x (List.mem_of_find?_eq_some hx) (by simpa using e1)
                simp [about, Out.about, e2]

/-! ## The machine of one key -/

/-- Gathering one message. -/
def kgather (valid : List α → Bool) (k : Key) (b : List α) (r : Rec α) : Option (List α) × List (Out α) :=
  if r.eom = false then (some (b ++ r.body), [])
  else if valid (b ++ r.body) = false then (some (b ++ r.body), [.error k 0])
  else (none, [.handled k (b ++ r.body)])

def kstep (valid : List α → Bool) (k : Key) (v : Option (List α)) : Ev α → Option (List α) × List (Out α)
  | .recv _ _ r _ =>
    if r.som then
      match v with
      | some b => (some b, [.error k 98])
      | none => kgather valid k [] r
    else
      match v with
      | none => (none, [.error k 2])
      | some b => kgather valid k b r
  | _ => (none, [])

def krun (valid : List α → Bool) (k : Key) : Option (List α) → List (Ev α) → List (Out α)
  | _, [] => []
  | v, e :: es => (kstep valid k v e).2 ++ krun valid k (kstep valid k v e).1 es

/-- The state holds this much of the message `k`. -/
def View (k : Key) (s : St α) : Option (List α) → Prop
  | none => ∀ c ∈ s.tab, c.key ≠ k
  | some b => ∃ c ∈ s.tab, c.key = k ∧ c.buf = b

theorem View.same {k : Key} {s t : St α} (h : Same k s t) {v : Option (List α)} (hv : View k s v) : View k t v := by
  cases v with
  | none =>
    intro c hc e
    exact hv c ((h c e).mp hc) e
  | some b =>
    obtain ⟨c, h1, h2, h3⟩ := hv
    exact ⟨c, (h c h2).mpr h1, h2, h3⟩

theorem about_id {k : Key} {os : List (Out α)} (h : ∀ o ∈ os, o.about k = true) : about k os = os :=
  List.filter_eq_self.mpr h

theorem gather_self {k : Key} {s : St α} (h : Inv k s) {c : Ctx α} (hc : c ∈ s.tab) (ek : c.key = k) (r : Rec α) :
    Inv k (gather valid s c r []).1 ∧ View k (gather valid s c r []).1 (kgather valid k c.buf r).1 ∧
      about k (gather valid s c r []).2 = (kgather valid k c.buf r).2 := by
  have hp := h.plain c hc ek
  have hu : ∀ x ∈ (update s c.id fun d => { d with buf := c.buf ++ r.body }).tab, x.key = k →
      x = { c with buf := c.buf ++ r.body } := by
    intro x hx e
    rcases mem_update.mp hx with ⟨h1, h2⟩ | ⟨d, h1, h2, rfl⟩
    · exact absurd (congrArg Ctx.id (h.one x h1 c hc e ek)) h2
    · rw [h.eq h1 hc h2]
  have hmem : { c with buf := c.buf ++ r.body } ∈ (update s c.id fun d => { d with buf := c.buf ++ r.body }).tab :=
    mem_update.mpr (.inr ⟨c, hc, rfl, rfl⟩)
  have horg : ∀ o d, d ∈ s.tab → d.org = some o → o ≠ c.id := by
    intro o d hd e1 e2
    exact (h.org d hd o e1).2 c hc e2.symm ek
  have h1 : Inv k (update s c.id fun d => { d with buf := c.buf ++ r.body }) := by
    refine ⟨h.toWf.update c.id (fun _ => rfl) (fun _ => rfl), ?_, ?_, ?_⟩
    · intro x hx y hy e1 e2
      rw [hu x hx e1, hu y hy e2]
    · intro x hx e
      rw [hu x hx e]
      exact hp
    · intro x hx o eo
      have : ∃ d ∈ s.tab, d.org = some o := by
        rcases mem_update.mp hx with ⟨h1, _⟩ | ⟨d, h1, _, rfl⟩
        · exact ⟨x, h1, eo⟩
        · exact ⟨d, h1, eo⟩
      obtain ⟨d, hd, ed⟩ := this
      refine ⟨(h.org d hd o ed).1, ?_⟩
      intro y hy ey eyk
      rw [hu y hy eyk] at ey
      exact horg o d hd ed ey.symm
  unfold gather kgather
  simp only []
  split
  · exact ⟨h1, ⟨_, hmem, ek, rfl⟩, rfl⟩
  · split
    · exact ⟨h1, ⟨_, hmem, ek, rfl⟩, by simp [about, Out.about, ek]⟩
    · simp only [forwards]
      have hgone : ∀ x ∈ (put (update (update s c.id fun d => { d with buf := c.buf ++ r.body }) c.id
          fun d => { d with host := true }) c.id).tab, x ∈ s.tab ∧ x.id ≠ c.id := by
        intro x hx
        rcases mem_put.mp hx with ⟨h1, h2⟩ | ⟨d, h1, h2, h3, rfl⟩
        · rcases mem_update.mp h1 with ⟨h3, _⟩ | ⟨y, h3, h4, rfl⟩
          · rcases mem_update.mp h3 with ⟨h5, _⟩ | ⟨y, h5, h6, rfl⟩
            · exact ⟨h5, h2⟩
            · exact absurd h6 h2
          · exact absurd h4 h2
        · exfalso
          rcases mem_update.mp h1 with ⟨_, h4⟩ | ⟨y, h4, h5, rfl⟩
          · exact h4 h2
          · rcases mem_update.mp h4 with ⟨_, h6⟩ | ⟨z, h6, h7, rfl⟩
            · exact h6 h5
            · rw [h.eq h6 hc h7] at h3
              simp only at h3
              omega
      have hw := ((h.toWf.update c.id (f := fun d => { d with buf := c.buf ++ r.body }) (fun _ => rfl)
        (fun _ => rfl)).update c.id (f := fun d => { d with host := true }) (fun _ => rfl) (fun _ => rfl)).put c.id
      have hnk : ∀ x ∈ s.tab, x.id ≠ c.id → x.key ≠ k := by
        intro x hx hne e
        exact hne (congrArg Ctx.id (h.one x hx c hc e ek))
      refine ⟨⟨hw, ?_, ?_, ?_⟩, ?_, ?_⟩
      · intro x hx y hy e1
        exact absurd e1 (hnk x (hgone x hx).1 (hgone x hx).2)
      · intro x hx e1
        exact absurd e1 (hnk x (hgone x hx).1 (hgone x hx).2)
      · intro x hx o eo
        refine ⟨(h.org x (hgone x hx).1 o eo).1, ?_⟩
        intro y hy _
        exact hnk y (hgone y hy).1 (hgone y hy).2
      · intro x hx
        exact hnk x (hgone x hx).1 (hgone x hx).2
      · rw [hp.2.1]
        simp [about, Out.about, ek]

theorem step_self {k : Key} (hkey : k.Ok) {s : St α} (h : Inv k s) {v : Option (List α)} (hv : View k s v)
    {e : Ev α} (hd : Direct k e) (hn : concerns k e = true) :
    Inv k (step valid s e).1 ∧ View k (step valid s e).1 (kstep valid k v e).1 ∧
      about k (step valid s e).2 = (kstep valid k v e).2 := by
  cases e with
  | own conn => cases hn
  | resp conn r => cases hn
  | term conn =>
    have hc : conn = k.conn := by simpa [concerns] using hn
    refine ⟨⟨h.toWf.term conn, ?_, ?_, ?_⟩, ?_, rfl⟩
    · intro c hc d hd
      exact h.one c (List.mem_filter.mp hc).1 d (List.mem_filter.mp hd).1
    · intro c hc
      exact h.plain c (List.mem_filter.mp hc).1
    · intro c hc o eo
      obtain ⟨a, b⟩ := h.org c (List.mem_filter.mp hc).1 o eo
      exact ⟨a, fun d hd => b d (List.mem_filter.mp hd).1⟩
    · intro c hc' e
      have := (List.mem_filter.mp hc').2
      rw [e] at this
      simp [hc] at this
  | recv kind conn r fwd =>
    simp only [concerns, Bool.and_eq_true, decide_eq_true_eq] at hn
    obtain ⟨⟨⟨hm, rfl⟩, rfl⟩, hmsg⟩ := hn
    have ek : (⟨k.kind, k.conn, r.msg⟩ : Key) = k := by rw [hmsg]
    have hf0 : fwd = [] := hd _ _ _ _ rfl ek
    subst hf0
    simp only [step, recv, hm, Bool.true_eq_false, if_false, kstep, ek]
    split
    · cases v with
      | none =>
        have hfn : find s k = none := by
          cases hf : find s k with
          | none => rfl
          | some c => exact absurd (h.toWf.find_some hkey hf).2 (hv c (h.toWf.find_some hkey hf).1)
        simp only [hfn]
        have ha : Inv k (alloc s k none) := by
          refine ⟨h.toWf.alloc hkey none, ?_, ?_, ?_⟩
          · intro c hc d hd e1 e2
            rcases List.mem_cons.mp hc with rfl | hc <;> rcases List.mem_cons.mp hd with rfl | hd
            · rfl
            · exact absurd e2 (hv d hd)
            · exact absurd e1 (hv c hc)
            · exact h.one c hc d hd e1 e2
          · intro c hc e
            rcases List.mem_cons.mp hc with rfl | hc
            · exact ⟨rfl, rfl, rfl⟩
            · exact h.plain c hc e
          · intro c hc o eo
            rcases List.mem_cons.mp hc with rfl | hc
            · cases eo
            · obtain ⟨a, b⟩ := h.org c hc o eo
              refine ⟨Nat.lt_succ_of_lt a, ?_⟩
              intro d hd ed
              rcases List.mem_cons.mp hd with rfl | hd
              · simp only at ed; omega
              · exact b d hd ed
        exact gather_self ha (c := ⟨s.next, k, [], 1, none, false⟩) List.mem_cons_self rfl r
      | some b =>
        have hfs : ∃ c, find s k = some c := by
          cases hf : find s k with
          | none =>
            obtain ⟨c, h1, h2, _⟩ := hv
            exact absurd h2 (h.toWf.find_none hkey hf c h1)
          | some c => exact ⟨c, rfl⟩
        obtain ⟨c, hf⟩ := hfs
        simp only [hf]
        exact ⟨h, hv, by simp [about, Out.about]⟩
    · cases v with
      | none =>
        have hfn : find s k = none := by
          cases hf : find s k with
          | none => rfl
          | some c => exact absurd (h.toWf.find_some hkey hf).2 (hv c (h.toWf.find_some hkey hf).1)
        simp only [hfn]
        exact ⟨h, hv, by simp [about, Out.about]⟩
      | some b =>
        cases hf : find s k with
        | none =>
          obtain ⟨c, h1, h2, _⟩ := hv
          exact absurd h2 (h.toWf.find_none hkey hf c h1)
        | some c =>
          simp only []
          obtain ⟨hc, ec⟩ := h.toWf.find_some hkey hf
          obtain ⟨c', h1, h2, h3⟩ := hv
          have := h.one c hc c' h1 ec h2
          subst this
          subst h3
          exact gather_self h hc ec r

theorem run_view {k : Key} (hk : k.kind ≠ .loc) (hkey : k.Ok) : ∀ (es : List (Ev α)) {s : St α} {v : Option (List α)},
    Inv k s → View k s v → (∀ e ∈ es, e.Ok ∧ Direct k e) →
    about k (run valid s es).2 = krun valid k v (es.filter (concerns k))
  | [], _, _, _, _, _ => rfl
  | e :: es, s, v, h, hv, he => by
    have h0 := he e (by simp)
    have hr : ∀ x ∈ es, x.Ok ∧ Direct k x := fun x hx => he x (by simp [hx])
    simp only [run]
    have hsplit : about k ((step valid s e).2 ++ (run valid (step valid s e).1 es).2) =
        about k (step valid s e).2 ++ about k (run valid (step valid s e).1 es).2 := by
      unfold about
      rw [List.filter_append]
    rw [hsplit]
    by_cases hn : concerns k e = true
    · obtain ⟨a, b, c⟩ := step_self (valid := valid) hkey h hv h0.2 hn
      rw [List.filter_cons_of_pos hn, c, run_view hk hkey es a b hr]
      rfl
    · have hn' : concerns k e = false := by simpa using hn
      obtain ⟨a, b, c⟩ := step_other (valid := valid) hk h h0.1 hn'
      rw [List.filter_cons_of_neg hn, c, run_view hk hkey es a (hv.same b) hr]
      rfl

theorem init_inv (k : Key) : Inv k (init : St α) := by
  refine ⟨⟨(fun _ h => nomatch h), (fun _ h => nomatch h), List.nodup_nil, (show (1 : Nat) < 2 ^ 32 by decide)⟩, (fun _ h => nomatch h),
    (fun _ h => nomatch h), (fun _ h => nomatch h)⟩

theorem init_view (k : Key) : View k (init : St α) none := fun _ h => nomatch h

end Verif.ReqTab
