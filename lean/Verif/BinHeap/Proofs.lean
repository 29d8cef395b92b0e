import Verif.BinHeap.Core

set_option linter.unusedSectionVars false

namespace Verif.BinHeap

variable {α : Type} [DecidableEq α]

/-- the order the comparator must provide -/
structure StrictWeak (lt : α → α → Bool) : Prop where
  irrefl : ∀ a, lt a a = false
  trans : ∀ a b c, lt a b = true → lt b c = true → lt a c = true
  ntrans : ∀ a b c, lt a b = false → lt b c = false → lt a c = false

theorem StrictWeak.asymm {lt : α → α → Bool} (h : StrictWeak lt) {a b : α} (hab : lt a b = true) :
    lt b a = false := by
  cases hba : lt b a with
  | false => rfl
  | true => have := h.trans _ _ _ hab hba; rw [h.irrefl] at this; cases this

def Decr (par : Nat → Nat) : Prop := ∀ c, 0 < c → par c < c

/-- heap order -/
def Ordered (par : Nat → Nat) (lt : α → α → Bool) (g : Nat → α) (n : Nat) : Prop :=
  ∀ i, 0 < i → i < n → lt (g i) (g (par i)) = false

/-- heap order except around position `c` -/
def Hole (par : Nat → Nat) (lt : α → α → Bool) (g : Nat → α) (n c : Nat) : Prop :=
  (∀ i, 0 < i → i < n → i ≠ c → par i ≠ c → lt (g i) (g (par i)) = false) ∧
  (∀ k, 0 < k → k < n → par k = c → 0 < c → lt (g k) (g (par c)) = false)

/-- distinct nodes, each remembering its position -/
structure Good (s : St α) : Prop where
  inj : ∀ i j, i < s.len → j < s.len → s.slots i = s.slots j → i = j
  idx : ∀ i, i < s.len → s.idx (s.slots i) = i

/-- the array with the node in hand put in the hole -/
def fill (s : St α) (c : Nat) (x : α) : Nat → α := upd s.slots c x

theorem upd_self {β γ : Type} [DecidableEq β] (f : β → γ) (b : β) (c : γ) : upd f b c b = c := by
  simp [upd]
theorem upd_ne {β γ : Type} [DecidableEq β] (f : β → γ) {b x : β} (c : γ) (h : x ≠ b) :
    upd f b c x = f x := by simp [upd, h]

/-- what the loops keep: with the node in the hole the nodes are distinct and every other node
knows its place; nodes outside keep their index. -/
structure Partial (s : St α) (c : Nat) (x : α) : Prop where
  lt : c < s.len
  inj : ∀ i j, i < s.len → j < s.len → fill s c x i = fill s c x j → i = j
  idx : ∀ i, i < s.len → i ≠ c → s.idx (s.slots i) = i

theorem partial_put {s : St α} {c : Nat} {x : α} (h : Partial s c x) : Good (put s c x) := by
  constructor
  · exact h.inj
  · intro i hi
    simp only [put] at hi ⊢
    by_cases hc : i = c
    · subst hc; simp [upd]
    · rw [upd_ne _ _ hc]
      have hne : s.slots i ≠ x := by
        intro he
        have := h.inj i c hi h.lt (by simp [fill, upd, hc, he])
        exact hc this
      rw [upd_ne _ _ hne]
      exact h.idx i hi hc

theorem partial_move {s : St α} {c d : Nat} {x : α} (h : Partial s c x) (hd : d < s.len)
    (hne : d ≠ c) : Partial (put s c (s.slots d)) d x := by
  have hinj := h.inj
  have hdx : s.slots d ≠ x := by
    intro he
    exact hne (hinj d c hd h.lt (by simp [fill, upd, hne, he]))
  refine ⟨hd, ?_, ?_⟩
  · -- the filled array is the old one with `c` and `d` swapped
    intro i j hi hj he
    simp only [put] at hi hj
    simp only [fill, put] at he
    have key : ∀ i, upd (upd s.slots c (s.slots d)) d x i =
        fill s c x (if i = c then d else if i = d then c else i) := by
      intro i
      by_cases h1 : i = c
      · subst h1; simp [upd, fill, hne, Ne.symm hne]
      · by_cases h2 : i = d
        · subst h2; simp [upd, fill, hne]
        · simp [upd, fill, h1, h2]
    rw [key i, key j] at he
    have hl : ∀ i, i < s.len → (if i = c then d else if i = d then c else i) < s.len := by
      intro i hi
      split
      · exact hd
      · split
        · exact h.lt
        · exact hi
    have := hinj _ _ (hl i hi) (hl j hj) he
    grind
  · intro i hi hid
    simp only [put] at hi ⊢
    by_cases hc : i = c
    · subst hc; simp [upd]
    · rw [upd_ne _ _ hc]
      have : s.slots i ≠ s.slots d := by
        intro he
        have := hinj i d hi hd (by simp [fill, upd, hc, hne, he])
        exact hid this
      rw [upd_ne _ _ this]
      exact h.idx i hi hc

/-- membership in the filled array -/
def Mem (g : Nat → α) (n : Nat) (y : α) : Prop := ∃ i, i < n ∧ g i = y

theorem mem_move {s : St α} {c d : Nat} {x y : α} (hc : c < s.len) (hd : d < s.len) (hne : d ≠ c) :
    Mem (fill (put s c (s.slots d)) d x) s.len y ↔ Mem (fill s c x) s.len y := by
  constructor
  · rintro ⟨i, hi, he⟩
    simp only [fill, put] at he
    by_cases h1 : i = d
    · subst h1; exact ⟨c, hc, by simpa [fill, upd] using he⟩
    · by_cases h2 : i = c
      · subst h2; exact ⟨d, hd, by simpa [fill, upd, hne, Ne.symm hne] using he⟩
      · exact ⟨i, hi, by simpa [fill, upd, h1, h2] using he⟩
  · rintro ⟨i, hi, he⟩
    simp only [fill] at he
    by_cases h1 : i = c
    · subst h1; exact ⟨d, hd, by simpa [fill, put, upd] using he⟩
    · by_cases h2 : i = d
      · subst h2; exact ⟨c, hc, by simpa [fill, put, upd, hne, Ne.symm hne] using he⟩
      · exact ⟨i, hi, by simpa [fill, put, upd, h1, h2] using he⟩

/-! ### floating -/

theorem floatUp_ok {par : Nat → Nat} (hpar : Decr par) {lt : α → α → Bool} (hlt : StrictWeak lt) :
    ∀ (fuel : Nat) (s : St α) (c : Nat) (x : α), c ≤ fuel → Partial s c x →
      Hole par lt (fill s c x) s.len c →
      (∀ k, 0 < k → k < s.len → par k = c → lt (fill s c x k) x = false) →
      Good (floatUp par lt fuel s c x) ∧
      Ordered par lt (floatUp par lt fuel s c x).slots s.len ∧
      (floatUp par lt fuel s c x).len = s.len ∧ (floatUp par lt fuel s c x).cap = s.cap ∧
      (∀ y, Mem (floatUp par lt fuel s c x).slots s.len y ↔ Mem (fill s c x) s.len y) ∧
      (∀ y, ¬ Mem (fill s c x) s.len y → (floatUp par lt fuel s c x).idx y = s.idx y) := by
  intro fuel
  -- stopping here
  have stop : ∀ (s : St α) (c : Nat) (x : α), Partial s c x →
      Hole par lt (fill s c x) s.len c →
      (∀ k, 0 < k → k < s.len → par k = c → lt (fill s c x k) x = false) →
      (0 < c → lt x (s.slots (par c)) = false) →
      Good (put s c x) ∧ Ordered par lt (put s c x).slots s.len ∧
      (put s c x).len = s.len ∧ (put s c x).cap = s.cap ∧
      (∀ y, Mem (put s c x).slots s.len y ↔ Mem (fill s c x) s.len y) ∧
      (∀ y, ¬ Mem (fill s c x) s.len y → (put s c x).idx y = s.idx y) := by
    intro s c x hp hh hk hx
    refine ⟨partial_put hp, ?_, rfl, rfl, fun y => Iff.rfl, ?_⟩
    · intro i h0 hi
      show lt (fill s c x i) (fill s c x (par i)) = false
      by_cases h1 : i = c
      · subst h1
        have hpi := hpar i h0
        have h2 : fill s i x (par i) = s.slots (par i) := upd_ne _ _ (by omega)
        have h3 : fill s i x i = x := upd_self _ _ _
        rw [h2, h3]; exact hx h0
      · by_cases h2 : par i = c
        · rw [h2]
          have h3 : fill s c x c = x := upd_self _ _ _
          rw [h3]; exact hk i h0 hi h2
        · exact hh.1 i h0 hi h1 h2
    · intro y hy
      simp only [put]
      apply upd_ne
      intro he
      exact hy ⟨c, hp.lt, by simp [fill, upd, he]⟩
  induction fuel with
  | zero =>
    intro s c x hc hp hh hk
    exact stop s c x hp hh hk (by omega)
  | succ fuel ih =>
    intro s c x hc hp hh hk
    unfold floatUp
    by_cases hc0 : c = 0
    · simp only [hc0, if_true]
      subst hc0
      exact stop s 0 x hp hh hk (by omega)
    · simp only [hc0, if_false]
      have hpc := hpar c (by omega)
      have hcl := hp.lt
      split
      · rename_i hlt'
        have hne : par c ≠ c := by omega
        have hfc : fill s c x c = x := upd_self _ _ _
        have hfp : fill s c x (par c) = s.slots (par c) := upd_ne _ _ hne
        -- values of the new filled array
        have v1 : fill (put s c (s.slots (par c))) (par c) x (par c) = x := by simp [fill, upd]
        have v2 : fill (put s c (s.slots (par c))) (par c) x c = s.slots (par c) := by
          simp [fill, put, upd, Ne.symm hne]
        have v3 : ∀ i, i ≠ c → i ≠ par c →
            fill (put s c (s.slots (par c))) (par c) x i = fill s c x i := by
          intro i h1 h2; simp [fill, put, upd, h1, h2]
        have hpx := hlt.asymm hlt'
        have hp' := partial_move hp (by omega : par c < s.len) hne
        have := ih (put s c (s.slots (par c))) (par c) x (by omega) hp' ⟨?_, ?_⟩ ?_
        · obtain ⟨g1, g2, g3, g4, g5, g6⟩ := this
          have hm := fun y => mem_move (s := s) (c := c) (d := par c) (x := x) (y := y) hcl (by omega) hne
          refine ⟨g1, g2, g3, g4, fun y => (g5 y).trans (hm y), ?_⟩
          intro y hy
          have e1 := g6 y (by intro hc; exact hy ((hm y).1 hc))
          rw [e1]
          simp only [put]
          apply upd_ne
          intro he
          exact hy ⟨par c, by omega, by rw [hfp, he]⟩
        · intro i h0 hi h1 h2
          have hi' : i < s.len := hi
          by_cases hic : i = c
          · exact absurd (by rw [hic]) h2
          · rw [v3 i hic h1]
            by_cases hpic : par i = c
            · rw [hpic, v2]
              have := hh.2 i h0 hi' hpic (by omega)
              rw [hfp] at this; exact this
            · rw [v3 (par i) hpic h2]
              exact hh.1 i h0 hi' hic hpic
        · intro k h0 hk' hkp hpos
          have hk'' : k < s.len := hk'
          have hppc := hpar (par c) hpos
          have hpar2 : fill (put s c (s.slots (par c))) (par c) x (par (par c)) =
              fill s c x (par (par c)) := v3 _ (by omega) (by omega)
          rw [hpar2]
          have hpp : lt (fill s c x (par c)) (fill s c x (par (par c))) = false :=
            hh.1 (par c) hpos (by omega) hne (by omega)
          by_cases hkc : k = c
          · subst hkc; rw [v2]; rw [hfp] at hpp; exact hpp
          · have hkne : k ≠ par c := by
              have := hpar k h0; omega
            rw [v3 k hkc hkne]
            have h3 := hh.1 k h0 hk'' hkc (by omega)
            rw [hkp] at h3
            exact hlt.ntrans _ _ _ h3 hpp
        · intro k h0 hk' hkp
          have hk'' : k < s.len := hk'
          by_cases hkc : k = c
          · subst hkc; rw [v2]; exact hpx
          · have hkne : k ≠ par c := by
              have := hpar k h0; omega
            rw [v3 k hkc hkne]
            have h3 := hh.1 k h0 hk'' hkc (by omega)
            rw [hkp, hfp] at h3
            exact hlt.ntrans _ _ _ h3 hpx
      · rename_i hlt'
        exact stop s c x hp hh hk (fun _ => by simpa using hlt')

/-- the loop stops at once when the parent is not larger -/
theorem floatUp_stay {par : Nat → Nat} {lt : α → α → Bool} {fuel : Nat} {s : St α} {c : Nat} {x : α}
    (h : 0 < c → lt x (s.slots (par c)) = false) : floatUp par lt fuel s c x = put s c x := by
  cases fuel with
  | zero => rfl
  | succ fuel =>
    unfold floatUp
    by_cases hc : c = 0
    · simp [hc]
    · simp [hc, h (by omega)]

/-! ### sinking, for the layout with children `2c+1` and `2c+2` -/

/-- the parent that matches the children of the sink loop -/
def halfPar (c : Nat) : Nat := (c - 1) / 2

theorem halfPar_decr : Decr halfPar := by intro c h; unfold halfPar; omega

theorem halfPar_iff {k c : Nat} (h : 0 < k) : halfPar k = c ↔ k = 2 * c + 1 ∨ k = 2 * c + 2 := by
  unfold halfPar; omega

theorem pickChild_cases {lt : α → α → Bool} (s : St α) (c : Nat) :
    pickChild lt s c = c * 2 + 1 ∨ (pickChild lt s c = c * 2 + 2 ∧ c * 2 + 2 < s.len) := by
  unfold pickChild; simp only
  split
  · exact .inl rfl
  · split
    · exact .inl rfl
    · exact .inr ⟨rfl, by omega⟩

theorem pickChild_min {lt : α → α → Bool} (hlt : StrictWeak lt) (s : St α) (c k : Nat)
    (hk0 : 0 < k) (hk : k < s.len) (hkc : halfPar k = c) :
    lt (s.slots k) (s.slots (pickChild lt s c)) = false := by
  rcases (halfPar_iff hk0).1 hkc with h | h
  · have e : c * 2 + 1 = k := by omega
    unfold pickChild; simp only
    split
    · rw [e]; exact hlt.irrefl _
    · split
      · rw [e]; exact hlt.irrefl _
      · rename_i h2
        rw [← e]; simpa using h2
  · have e : c * 2 + 1 + 1 = k := by omega
    unfold pickChild; simp only
    split
    · omega
    · split
      · rename_i h2
        rw [e] at h2
        exact hlt.asymm h2
      · rw [e]; exact hlt.irrefl _

theorem sinkDown_ok {lt : α → α → Bool} (hlt : StrictWeak lt) :
    ∀ (fuel : Nat) (s : St α) (c : Nat) (x : α), s.len ≤ fuel + c → Partial s c x →
      Hole halfPar lt (fill s c x) s.len c →
      (0 < c → lt x (fill s c x (halfPar c)) = false) →
      Good (sinkDown lt fuel s c x) ∧
      Ordered halfPar lt (sinkDown lt fuel s c x).slots s.len ∧
      (sinkDown lt fuel s c x).len = s.len ∧ (sinkDown lt fuel s c x).cap = s.cap ∧
      (∀ y, Mem (sinkDown lt fuel s c x).slots s.len y ↔ Mem (fill s c x) s.len y) ∧
      (∀ y, ¬ Mem (fill s c x) s.len y → (sinkDown lt fuel s c x).idx y = s.idx y) := by
  intro fuel
  have stop : ∀ (s : St α) (c : Nat) (x : α), Partial s c x →
      Hole halfPar lt (fill s c x) s.len c →
      (0 < c → lt x (fill s c x (halfPar c)) = false) →
      (∀ k, 0 < k → k < s.len → halfPar k = c → lt (fill s c x k) x = false) →
      Good (put s c x) ∧ Ordered halfPar lt (put s c x).slots s.len ∧
      (put s c x).len = s.len ∧ (put s c x).cap = s.cap ∧
      (∀ y, Mem (put s c x).slots s.len y ↔ Mem (fill s c x) s.len y) ∧
      (∀ y, ¬ Mem (fill s c x) s.len y → (put s c x).idx y = s.idx y) := by
    intro s c x hp hh hx hk
    refine ⟨partial_put hp, ?_, rfl, rfl, fun y => Iff.rfl, ?_⟩
    · intro i h0 hi
      show lt (fill s c x i) (fill s c x (halfPar i)) = false
      have h3 : fill s c x c = x := upd_self _ _ _
      by_cases h1 : i = c
      · subst h1; rw [h3]; exact hx h0
      · by_cases h2 : halfPar i = c
        · rw [h2, h3]; exact hk i h0 hi h2
        · exact hh.1 i h0 hi h1 h2
    · intro y hy
      simp only [put]
      apply upd_ne
      intro he
      exact hy ⟨c, hp.lt, by simp [fill, upd, he]⟩
  induction fuel with
  | zero =>
    intro s c x hc hp hh hx
    have := hp.lt
    omega
  | succ fuel ih =>
    intro s c x hc hp hh hx
    have hcl := hp.lt
    unfold sinkDown
    split
    · rename_i hl
      simp only
      have hd0 : 0 < pickChild lt s c ∧ pickChild lt s c < s.len ∧ halfPar (pickChild lt s c) = c ∧
          c < pickChild lt s c := by
        rcases pickChild_cases (lt := lt) s c with h | ⟨h, h'⟩
        · rw [h]; exact ⟨by omega, hl, by unfold halfPar; omega, by omega⟩
        · rw [h]; exact ⟨by omega, h', by unfold halfPar; omega, by omega⟩
      have hmin := fun k h0 hk hkc => pickChild_min hlt s c k h0 hk hkc
      generalize pickChild lt s c = d at hd0 hmin ⊢
      obtain ⟨hd0, hdl, hdp, hcd⟩ := hd0
      have hne : d ≠ c := by omega
      split
      · rename_i hlt'
        have hfc : fill s c x c = x := upd_self _ _ _
        have hfd : fill s c x d = s.slots d := upd_ne _ _ hne
        have v1 : fill (put s c (s.slots d)) d x d = x := by simp [fill, upd]
        have v2 : fill (put s c (s.slots d)) d x c = s.slots d := by
          simp [fill, put, upd, Ne.symm hne]
        have v3 : ∀ i, i ≠ c → i ≠ d → fill (put s c (s.slots d)) d x i = fill s c x i := by
          intro i h1 h2; simp [fill, put, upd, h1, h2]
        have hp' := partial_move hp hdl hne
        have := ih (put s c (s.slots d)) d x (by simp only [put]; omega) hp' ⟨?_, ?_⟩ ?_
        · obtain ⟨g1, g2, g3, g4, g5, g6⟩ := this
          have hm := fun y => mem_move (s := s) (c := c) (d := d) (x := x) (y := y) hcl hdl hne
          refine ⟨g1, g2, g3, g4, fun y => (g5 y).trans (hm y), ?_⟩
          intro y hy
          have e1 := g6 y (by intro hc; exact hy ((hm y).1 hc))
          rw [e1]
          simp only [put]
          apply upd_ne
          intro he
          exact hy ⟨d, hdl, by rw [hfd, he]⟩
        · intro i h0 hi h1 h2
          have hi' : i < s.len := hi
          by_cases hic : i = c
          · subst hic
            rw [v2]
            have hpi := halfPar_decr i h0
            rw [v3 (halfPar i) (by omega) h2]
            have := hh.2 d hd0 hdl hdp h0
            rw [hfd] at this; exact this
          · rw [v3 i hic h1]
            by_cases hpic : halfPar i = c
            · rw [hpic, v2]
              have := hmin i h0 hi' hpic
              have e : fill s c x i = s.slots i := upd_ne _ _ hic
              rw [e]; exact this
            · rw [v3 _ hpic h2]
              exact hh.1 i h0 hi' hic hpic
        · intro k h0 hk' hkp hpos
          have hk'' : k < s.len := hk'
          have hkd := halfPar_decr k h0
          rw [hdp, v2]
          rw [v3 k (by omega) (by omega)]
          have h3 := hh.1 k h0 hk'' (by omega) (by omega)
          rw [hkp, hfd] at h3; exact h3
        · intro _
          rw [hdp, v2]
          exact hlt.asymm hlt'
      · rename_i hlt'
        refine stop s c x hp hh hx ?_
        intro k h0 hk hkc
        have hkc' := halfPar_decr k h0
        have e : fill s c x k = s.slots k := upd_ne _ _ (by omega)
        rw [e]
        have h1 := hmin k h0 hk hkc
        have h2 : lt (s.slots d) x = false := by simpa using hlt'
        exact hlt.ntrans _ _ _ h1 h2
    · rename_i hl
      refine stop s c x hp hh hx ?_
      intro k h0 hk hkc
      rcases (halfPar_iff h0).1 hkc with h | h <;> omega

/-- the root of an ordered array is a minimum -/
theorem ordered_top {par : Nat → Nat} (hpar : Decr par) {lt : α → α → Bool} (hlt : StrictWeak lt)
    {g : Nat → α} {n : Nat} (h : Ordered par lt g n) : ∀ i, i < n → lt (g i) (g 0) = false := by
  intro i
  induction i using Nat.strongRecOn with
  | _ i ih =>
    intro hi
    by_cases h0 : i = 0
    · subst h0; exact hlt.irrefl _
    · have hp := hpar i (by omega)
      exact hlt.ntrans _ _ _ (h i (by omega) hi) (ih _ hp (by omega))

theorem mem_contents {s : St α} {y : α} : y ∈ contents s ↔ Mem s.slots s.len y := by
  simp [contents, Mem]

theorem good_nodup {s : St α} (h : Good s) : (contents s).Nodup := by
  unfold contents List.Nodup
  rw [List.pairwise_map]
  apply List.Pairwise.imp_of_mem _ List.nodup_range
  intro a b ha hb hab he
  simp at ha hb
  exact hab (h.inj a b ha hb he)

theorem good_partial {s : St α} (h : Good s) {c : Nat} (hc : c < s.len) :
    Partial s c (s.slots c) := by
  have e : fill s c (s.slots c) = s.slots := by
    funext i; simp only [fill, upd]; split
    · subst_vars; rfl
    · rfl
  exact ⟨hc, by rw [e]; exact h.inj, fun i hi _ => h.idx i hi⟩

theorem fill_self (s : St α) (c : Nat) : fill s c (s.slots c) = s.slots := by
  funext i; simp only [fill, upd]; split
  · subst_vars; rfl
  · rfl

/-- inserting keeps the order and adds exactly the new node -/
theorem insert_ok {par : Nat → Nat} (hpar : Decr par) {lt : α → α → Bool} (hlt : StrictWeak lt)
    {s : St α} (hg : Good s) (ho : Ordered par lt s.slots s.len) {x : α} (hx : x ∉ contents s)
    (hcap : s.len ≠ s.cap) :
    ∃ s', insert par lt s x = some s' ∧ Good s' ∧ Ordered par lt s'.slots s'.len ∧
      s'.len = s.len + 1 ∧ s'.cap = s.cap ∧ (∀ y, y ∈ contents s' ↔ y = x ∨ y ∈ contents s) := by
  have hx' : ∀ i, i < s.len → s.slots i ≠ x := by
    intro i hi he; exact hx (mem_contents.2 ⟨i, hi, he⟩)
  let s1 : St α := { put s s.len x with len := s.len + 1 }
  have hs1 : s1.slots = upd s.slots s.len x := rfl
  have hl1 : s1.len = s.len + 1 := rfl
  have hself : s1.slots s.len = x := by rw [hs1]; exact upd_self _ _ _
  have hold : ∀ i, i ≠ s.len → s1.slots i = s.slots i := by
    intro i hi; rw [hs1]; exact upd_ne _ _ hi
  have hfill : fill s1 s.len x = s1.slots := by
    have := fill_self s1 s.len; rwa [hself] at this
  have hp : Partial s1 s.len x := by
    refine ⟨by omega, ?_, ?_⟩
    · rw [hfill]
      intro i j hi hj he
      by_cases h1 : i = s.len <;> by_cases h2 : j = s.len
      · omega
      · rw [h1, hself, hold j h2] at he; exact absurd he.symm (hx' j (by omega))
      · rw [h2, hself, hold i h1] at he; exact absurd he (hx' i (by omega))
      · rw [hold i h1, hold j h2] at he; exact hg.inj i j (by omega) (by omega) he
    · intro i hi hne
      rw [hold i hne]
      show upd s.idx x _ (s.slots i) = _
      rw [upd_ne _ _ (hx' i (by omega))]
      exact hg.idx i (by omega)
  have := floatUp_ok hpar hlt s.len s1 s.len x (Nat.le_refl _) hp (by
    rw [hfill]
    refine ⟨?_, ?_⟩
    · intro i h0 hi h1 h2
      rw [hold i h1, hold _ h2]
      exact ho i h0 (by omega)
    · intro k h0 hk hkp
      have := hpar k h0; omega) (by
    intro k h0 hk hkp
    have := hpar k h0; omega)
  obtain ⟨g1, g2, g3, g4, g5, _⟩ := this
  refine ⟨_, by simp [insert, hcap]; rfl, g1, ?_, ?_, ?_, ?_⟩
  · rw [show (floatUp par lt s.len s1 s.len x).len = s1.len from g3]; exact g2
  · exact g3
  · exact g4
  · intro y
    rw [mem_contents, show (floatUp par lt s.len s1 s.len x).len = s1.len from g3, g5, hfill]
    constructor
    · rintro ⟨i, hi, he⟩
      by_cases h1 : i = s.len
      · left; rw [h1, hself] at he; exact he.symm
      · right; rw [hold i h1] at he; exact mem_contents.2 ⟨i, by omega, he⟩
    · rintro (rfl | hy)
      · exact ⟨s.len, by omega, hself⟩
      · obtain ⟨i, hi, he⟩ := mem_contents.1 hy
        exact ⟨i, by omega, by rw [hold i (by omega)]; exact he⟩

/-- after one node's key changed, `update` at its position restores the order -/
theorem update_ok {lt lt' : α → α → Bool} (hlt : StrictWeak lt) (hlt' : StrictWeak lt')
    {s : St α} (hg : Good s) (ho : Ordered halfPar lt s.slots s.len) {c : Nat} (hc : c < s.len)
    (hsame : ∀ a b, a ≠ s.slots c → b ≠ s.slots c → lt' a b = lt a b) :
    Good (update halfPar lt' s c) ∧ Ordered halfPar lt' (update halfPar lt' s c).slots s.len ∧
    (update halfPar lt' s c).len = s.len ∧ (update halfPar lt' s c).cap = s.cap ∧
    (∀ y, y ∈ contents (update halfPar lt' s c) ↔ y ∈ contents s) := by
  have hp := good_partial hg hc
  have hne : ∀ i, i < s.len → i ≠ c → s.slots i ≠ s.slots c :=
    fun i hi h he => h (hg.inj i c hi hc he)
  have hole : Hole halfPar lt' (fill s c (s.slots c)) s.len c := by
    rw [fill_self]
    refine ⟨?_, ?_⟩
    · intro i h0 hi h1 h2
      have hpi := halfPar_decr i h0
      rw [hsame _ _ (hne i hi h1) (hne _ (by omega) h2)]
      exact ho i h0 hi
    · intro k h0 hk hkp hpos
      have hpk := halfPar_decr k h0
      have hpc := halfPar_decr c hpos
      rw [hsame _ _ (hne k hk (by omega)) (hne _ (by omega) (by omega))]
      have h1 := ho k h0 hk
      rw [hkp] at h1
      exact hlt.ntrans _ _ _ h1 (ho c hpos hc)
  have wrap : ∀ s' : St α, s'.len = s.len → (∀ y, Mem s'.slots s.len y ↔ Mem s.slots s.len y) →
      ∀ y, y ∈ contents s' ↔ y ∈ contents s := by
    intro s' h1 h2 y
    rw [mem_contents, mem_contents, h1]; exact h2 y
  by_cases hfl : 0 < c ∧ lt' (s.slots c) (s.slots (halfPar c)) = true
  · -- the node floats, so the sink is skipped
    have hk : ∀ k, 0 < k → k < s.len → halfPar k = c →
        lt' (fill s c (s.slots c) k) (s.slots c) = false := by
      rw [fill_self]
      intro k h0 hk hkp
      have h1 := hole.2 k h0 hk hkp hfl.1
      rw [fill_self] at h1
      exact hlt'.ntrans _ _ _ h1 (hlt'.asymm hfl.2)
    obtain ⟨g1, g2, g3, g4, g5, g6⟩ :=
      floatUp_ok halfPar_decr hlt' c s c (s.slots c) (Nat.le_refl _) hp hole hk
    have hmoved : (floatUp halfPar lt' c s c (s.slots c)).idx (s.slots c) ≠ c := by
      intro he
      -- the node sits at `c` again, so its old parent is its parent and is larger: contradiction
      have hm := (g5 (s.slots c)).2 ⟨c, hc, by rw [fill_self]⟩
      obtain ⟨i, hi, hie⟩ := hm
      have hidx := g1.idx i (by rw [g3]; exact hi)
      rw [hie, he] at hidx
      have hic : i = c := by omega
      subst hic
      -- after the first step position `i` holds the old parent, and floating never returns to `i`
      have stay : ∀ (fuel : Nat) (t : St α) (d : Nat), d < i → i < t.len →
          (floatUp halfPar lt' fuel t d (s.slots i)).slots i = t.slots i := by
        intro fuel
        induction fuel with
        | zero => intro t d hd _; simp only [floatUp, put]; exact upd_ne _ _ (by omega)
        | succ fuel ih =>
          intro t d hd hl
          unfold floatUp
          split
          · simp only [put]; exact upd_ne _ _ (by omega)
          · split
            · have := halfPar_decr d (by omega)
              rw [ih (put t d (t.slots (halfPar d))) (halfPar d) (by omega) hl]
              simp only [put]; exact upd_ne _ _ (by omega)
            · simp only [put]; exact upd_ne _ _ (by omega)
      have hpi := halfPar_decr i hfl.1
      have : (floatUp halfPar lt' i s i (s.slots i)).slots i = s.slots (halfPar i) := by
        cases i with
        | zero => omega
        | succ k =>
          unfold floatUp
          simp only [Nat.succ_ne_zero, if_false, hfl.2, if_true]
          rw [stay _ (put s (k + 1) (s.slots (halfPar (k + 1)))) _ hpi hi]
          simp [put, upd]
      rw [this] at hie
      exact (hne _ (by omega) (by omega)) hie
    have e : update halfPar lt' s c = floatUp halfPar lt' c s c (s.slots c) := by
      unfold update; simp [hmoved]
    rw [e]
    refine ⟨g1, g2, g3, g4, wrap _ g3 ?_⟩
    intro y; rw [g5, fill_self]
  · have hst : 0 < c → lt' (s.slots c) (s.slots (halfPar c)) = false := by
      intro h0
      cases hb : lt' (s.slots c) (s.slots (halfPar c)) with
      | false => rfl
      | true => exact absurd ⟨h0, hb⟩ hfl
    have e : update halfPar lt' s c = sinkDown lt' s.len (put s c (s.slots c)) c (s.slots c) := by
      unfold update
      simp only [floatUp_stay hst]
      simp [put, upd]
    have eput : put s c (s.slots c) = s := by
      have h1 : upd s.slots c (s.slots c) = s.slots := fill_self s c
      have h2 : upd s.idx (s.slots c) (c : Int) = s.idx := by
        funext y; simp only [upd]; split
        · rename_i hy; rw [hy, hg.idx c hc]
        · rfl
      simp only [put, h1, h2]
    rw [e, eput]
    obtain ⟨g1, g2, g3, g4, g5, _⟩ := sinkDown_ok hlt' s.len s c (s.slots c) (by omega) hp hole
      (by rw [fill_self]; exact hst)
    refine ⟨g1, g2, g3, g4, wrap _ g3 ?_⟩
    intro y; rw [g5, fill_self]

/-! ### what holds whatever the order of the array -/

/-- same nodes, all knowing their place, nothing else touched -/
structure Same (s : St α) (c : Nat) (x : α) (s' : St α) : Prop where
  good : Good s'
  len : s'.len = s.len
  cap : s'.cap = s.cap
  mem : ∀ y, Mem s'.slots s.len y ↔ Mem (fill s c x) s.len y
  idx : ∀ y, ¬ Mem (fill s c x) s.len y → s'.idx y = s.idx y

theorem same_put {s : St α} {c : Nat} {x : α} (hp : Partial s c x) : Same s c x (put s c x) := by
  refine ⟨partial_put hp, rfl, rfl, fun y => Iff.rfl, ?_⟩
  intro y hy
  simp only [put]
  apply upd_ne
  intro he
  exact hy ⟨c, hp.lt, by simp [fill, upd, he]⟩

theorem same_move {s s' : St α} {c d : Nat} {x : α} (hc : c < s.len) (hd : d < s.len) (hne : d ≠ c)
    (h : Same (put s c (s.slots d)) d x s') : Same s c x s' := by
  have hm := fun y => mem_move (s := s) (c := c) (d := d) (x := x) (y := y) hc hd hne
  refine ⟨h.good, h.len, h.cap, fun y => (h.mem y).trans (hm y), ?_⟩
  intro y hy
  rw [h.idx y (fun hc => hy ((hm y).1 hc))]
  simp only [put]
  apply upd_ne
  intro he
  exact hy ⟨d, hd, by rw [he]; exact upd_ne _ _ hne⟩

theorem floatUp_same {par : Nat → Nat} (hpar : Decr par) {lt : α → α → Bool} :
    ∀ (fuel : Nat) (s : St α) (c : Nat) (x : α), Partial s c x →
      Same s c x (floatUp par lt fuel s c x) := by
  intro fuel
  induction fuel with
  | zero => intro s c x hp; exact same_put hp
  | succ fuel ih =>
    intro s c x hp
    have hcl := hp.lt
    unfold floatUp
    split
    · exact same_put hp
    · split
      · have hpc := hpar c (by omega)
        exact same_move hcl (by omega) (by omega) (ih _ _ _ (partial_move hp (by omega) (by omega)))
      · exact same_put hp

theorem sinkDown_same {lt : α → α → Bool} :
    ∀ (fuel : Nat) (s : St α) (c : Nat) (x : α), Partial s c x →
      Same s c x (sinkDown lt fuel s c x) := by
  intro fuel
  induction fuel with
  | zero => intro s c x hp; exact same_put hp
  | succ fuel ih =>
    intro s c x hp
    have hcl := hp.lt
    unfold sinkDown
    split
    · rename_i hl
      have hd : pickChild lt s c < s.len ∧ pickChild lt s c ≠ c := by
        rcases pickChild_cases (lt := lt) s c with h | ⟨h, h'⟩
        · rw [h]; exact ⟨hl, by omega⟩
        · rw [h]; exact ⟨h', by omega⟩
      simp only
      split
      · exact same_move hcl hd.1 hd.2 (ih _ _ _ (partial_move hp hd.1 hd.2))
      · exact same_put hp
    · exact same_put hp

theorem update_same {par : Nat → Nat} (hpar : Decr par) {lt : α → α → Bool} {s : St α} (hg : Good s)
    {c : Nat} (hc : c < s.len) : Same s c (s.slots c) (update par lt s c) := by
  have h1 := floatUp_same hpar (lt := lt) c s c (s.slots c) (good_partial hg hc)
  unfold update
  simp only
  split
  · rename_i he
    generalize floatUp par lt c s c (s.slots c) = s' at h1 he
    -- the node is at `c` again
    have hm := (h1.mem (s.slots c)).2 ⟨c, hc, by rw [fill_self]⟩
    obtain ⟨i, hi, hie⟩ := hm
    have hidx := h1.good.idx i (by rw [h1.len]; exact hi)
    rw [hie, he] at hidx
    have hic : i = c := by omega
    subst hic
    have hp := good_partial h1.good (c := i) (by rw [h1.len]; exact hi)
    rw [hie] at hp
    have h2 := sinkDown_same (lt := lt) s.len s' i (s.slots i) hp
    have e : fill s' i (s.slots i) = s'.slots := by rw [← hie]; exact fill_self _ _
    refine ⟨h2.good, by rw [h2.len, h1.len], by rw [h2.cap, h1.cap], ?_, ?_⟩
    · intro y
      have := h2.mem y
      rw [h1.len, e] at this
      exact this.trans (h1.mem y)
    · intro y hy
      rw [h2.idx y (by rw [h1.len, e]; exact fun hc => hy ((h1.mem y).1 hc)), h1.idx y hy]
  · exact h1

/-- all other nodes stay, `x` goes -/
structure Removed (s : St α) (x : α) (s' : St α) : Prop where
  good : Good s'
  len : s'.len + 1 = s.len
  cap : s'.cap = s.cap
  mem : ∀ y, y ∈ contents s' ↔ y ∈ contents s ∧ y ≠ x
  idx : ∀ y, y ∉ contents s' → s'.idx y = if y = x then -1 else s.idx y

theorem removeSink_same {lt : α → α → Bool} {s : St α} (hg : Good s) {c : Nat} (hc : c < s.len) :
    Removed s (s.slots c) (removeSink lt s (s.slots c)) := by
  have hidx := hg.idx c hc
  have h0 : 0 ≤ s.idx (s.slots c) := by omega
  have hcn : (s.idx (s.slots c)).toNat = c := by omega
  unfold removeSink
  simp only [h0, if_true, hcn]
  by_cases hlast : c = s.len - 1
  · -- the last node itself is removed
    have e : sinkDown lt (s.len - 1) { put s c (s.slots (s.len - 1)) with len := s.len - 1 } c
        (s.slots (s.len - 1)) = put { put s c (s.slots (s.len - 1)) with len := s.len - 1 } c
          (s.slots (s.len - 1)) := by
      generalize s.len - 1 = n at *
      cases n with
      | zero => rfl
      | succ n => unfold sinkDown; simp [show ¬ (c * 2 + 1 < n + 1) by omega]
    rw [e]
    rw [← hlast]
    have es : upd (upd s.slots c (s.slots c)) c (s.slots c) = s.slots := by
      rw [show upd s.slots c (s.slots c) = s.slots from fill_self s c]
      exact fill_self s c
    simp only [put]
    refine ⟨⟨?_, ?_⟩, ?_, rfl, ?_, ?_⟩
    · simp only [es]; intro i j hi hj; exact hg.inj i j (by omega) (by omega)
    · simp only [es]; intro i hi
      have hne : s.slots i ≠ s.slots c := fun he => by
        have := hg.inj i c (by omega) hc he; omega
      rw [upd_ne _ _ hne, upd_ne _ _ hne, upd_ne _ _ hne]
      exact hg.idx i (by omega)
    · show c + 1 = s.len; omega
    · intro y
      rw [mem_contents, mem_contents]
      simp only [es]
      constructor
      · rintro ⟨i, hi, rfl⟩
        refine ⟨⟨i, by omega, rfl⟩, fun he => ?_⟩
        have := hg.inj i c (by omega) hc he; omega
      · rintro ⟨⟨i, hi, rfl⟩, hne⟩
        refine ⟨i, ?_, rfl⟩
        have : i ≠ c := fun he => hne (by rw [he])
        omega
    · intro y _
      simp only [upd]
      split <;> rfl
  · have hs1 : Partial { put s c (s.slots (s.len - 1)) with len := s.len - 1 } c
        (s.slots (s.len - 1)) := by
      have hp := partial_move (good_partial hg hc) (d := s.len - 1) (by omega) (by omega)
      refine ⟨by show c < s.len - 1; omega, ?_, ?_⟩
      · intro i j hi hj he
        have hi' : i < s.len - 1 := hi
        have hj' : j < s.len - 1 := hj
        have e : ∀ k, k < s.len - 1 → fill ({ put s c (s.slots (s.len - 1)) with len := s.len - 1 } : St α) c
            (s.slots (s.len - 1)) k = fill (put s c (s.slots (s.len - 1))) (s.len - 1) (s.slots c) k := by
          intro k hk
          have hk' : k ≠ s.len - 1 := by omega
          simp only [fill, put, upd, hk', if_false]
          split <;> rfl
        rw [e i hi', e j hj'] at he
        exact hp.inj i j (by show i < s.len; omega) (by show j < s.len; omega) he
      · intro i hi hne
        have hi' : i < s.len - 1 := hi
        exact hp.idx i (by show i < s.len; omega) (by omega)
    have h := sinkDown_same (lt := lt) (s.len - 1) _ c _ hs1
    have hfill : fill ({ put s c (s.slots (s.len - 1)) with len := s.len - 1 } : St α) c
        (s.slots (s.len - 1)) = upd s.slots c (s.slots (s.len - 1)) := by
      funext i; simp only [fill, put, upd]; split <;> rfl
    have hmem : ∀ y, Mem (upd s.slots c (s.slots (s.len - 1))) (s.len - 1) y ↔
        Mem s.slots s.len y ∧ y ≠ s.slots c := by
      intro y
      constructor
      · rintro ⟨i, hi, he⟩
        by_cases hic : i = c
        · subst hic; rw [upd_self] at he
          refine ⟨⟨s.len - 1, by omega, he⟩, fun hh => ?_⟩
          have := hg.inj (s.len - 1) i (by omega) hc (he.trans hh); omega
        · rw [upd_ne _ _ hic] at he
          refine ⟨⟨i, by omega, he⟩, fun hh => ?_⟩
          exact hic (hg.inj i c (by omega) hc (he.trans hh))
      · rintro ⟨⟨i, hi, rfl⟩, hne⟩
        have hic : i ≠ c := fun he => hne (by rw [he])
        by_cases hil : i = s.len - 1
        · exact ⟨c, by omega, by rw [upd_self, hil]⟩
        · exact ⟨i, by omega, upd_ne _ _ hic⟩
    have hlen : (sinkDown lt (s.len - 1) { put s c (s.slots (s.len - 1)) with len := s.len - 1 } c
        (s.slots (s.len - 1))).len = s.len - 1 := h.len
    have hm := h.mem
    rw [hfill] at hm
    have hix := h.idx
    rw [hfill] at hix
    have hgood := h.good
    have hcap := h.cap
    generalize sinkDown lt (s.len - 1) { put s c (s.slots (s.len - 1)) with len := s.len - 1 } c
        (s.slots (s.len - 1)) = s2 at hlen hm hix hgood hcap ⊢
    have hm' : ∀ y, Mem s2.slots s2.len y ↔ Mem s.slots s.len y ∧ y ≠ s.slots c := by
      intro y; rw [hlen]; exact (hm y).trans (hmem y)
    refine ⟨⟨hgood.inj, ?_⟩, ?_, hcap, ?_, ?_⟩
    · intro i hi
      have hi2 : i < s2.len := hi
      have hne : s2.slots i ≠ s.slots c := ((hm' _).1 ⟨i, hi2, rfl⟩).2
      show upd s2.idx _ _ (s2.slots i) = _
      rw [upd_ne _ _ hne]; exact hgood.idx i hi
    · show s2.len + 1 = s.len; omega
    · intro y
      rw [mem_contents, mem_contents]; exact hm' y
    · intro y hy
      rw [mem_contents] at hy
      have hy' : ¬ Mem s2.slots s2.len y := hy
      show upd s2.idx _ _ y = _
      simp only [upd]
      split
      · rfl
      · rename_i hne
        rw [hlen] at hy'
        rw [hix y (fun hh => hy' ((hm y).2 hh))]
        show upd s.idx _ _ y = _
        apply upd_ne
        intro he
        apply hy'
        rw [← hlen]
        exact (hm' y).2 ⟨⟨s.len - 1, by omega, he.symm⟩, hne⟩

/-- removing the node at `c` keeps the order if the last node is not smaller than the parent of `c` -/
theorem removeSink_ordered {lt : α → α → Bool} (hlt : StrictWeak lt) {s : St α} (hg : Good s)
    (ho : Ordered halfPar lt s.slots s.len) {c : Nat} (hc : c < s.len)
    (hpar : 0 < c → c < s.len - 1 → lt (s.slots (s.len - 1)) (s.slots (halfPar c)) = false) :
    Ordered halfPar lt (removeSink lt s (s.slots c)).slots (s.len - 1) := by
  have hidx := hg.idx c hc
  have h0 : 0 ≤ s.idx (s.slots c) := by omega
  have hcn : (s.idx (s.slots c)).toNat = c := by omega
  unfold removeSink
  simp only [h0, if_true, hcn]
  by_cases hlast : c = s.len - 1
  · have e : sinkDown lt (s.len - 1) { put s c (s.slots (s.len - 1)) with len := s.len - 1 } c
        (s.slots (s.len - 1)) = put { put s c (s.slots (s.len - 1)) with len := s.len - 1 } c
          (s.slots (s.len - 1)) := by
      generalize s.len - 1 = n at *
      cases n with
      | zero => rfl
      | succ n => unfold sinkDown; simp [show ¬ (c * 2 + 1 < n + 1) by omega]
    rw [e, ← hlast]
    have es : upd (upd s.slots c (s.slots c)) c (s.slots c) = s.slots := by
      rw [show upd s.slots c (s.slots c) = s.slots from fill_self s c]
      exact fill_self s c
    simp only [put, es]
    intro i h0 hi; exact ho i h0 (by omega)
  · have hs1 : Partial { put s c (s.slots (s.len - 1)) with len := s.len - 1 } c
        (s.slots (s.len - 1)) := by
      have hp := partial_move (good_partial hg hc) (d := s.len - 1) (by omega) (by omega)
      refine ⟨by show c < s.len - 1; omega, ?_, ?_⟩
      · intro i j hi hj he
        have hi' : i < s.len - 1 := hi
        have hj' : j < s.len - 1 := hj
        have e : ∀ k, k < s.len - 1 → fill ({ put s c (s.slots (s.len - 1)) with len := s.len - 1 } : St α) c
            (s.slots (s.len - 1)) k = fill (put s c (s.slots (s.len - 1))) (s.len - 1) (s.slots c) k := by
          intro k hk
          have hk' : k ≠ s.len - 1 := by omega
          simp only [fill, put, upd, hk', if_false]
          split <;> rfl
        rw [e i hi', e j hj'] at he
        exact hp.inj i j (by show i < s.len; omega) (by show j < s.len; omega) he
      · intro i hi hne
        have hi' : i < s.len - 1 := hi
        exact hp.idx i (by show i < s.len; omega) (by omega)
    have hfill : fill ({ put s c (s.slots (s.len - 1)) with len := s.len - 1 } : St α) c
        (s.slots (s.len - 1)) = upd s.slots c (s.slots (s.len - 1)) := by
      funext i; simp only [fill, put, upd]; split <;> rfl
    refine (sinkDown_ok hlt (s.len - 1) _ c _ ?_ hs1 ?_ ?_).2.1
    · show s.len - 1 ≤ s.len - 1 + c; omega
    · rw [hfill]
      refine ⟨?_, ?_⟩
      · intro i h0 hi h1 h2
        have hi' : i < s.len - 1 := hi
        rw [upd_ne _ _ h1, upd_ne _ _ h2]; exact ho i h0 (by omega)
      · intro k h0 hk hkp hpos
        have hk' : k < s.len - 1 := hk
        have h3 := halfPar_decr k h0
        have h4 := halfPar_decr c hpos
        rw [upd_ne _ _ (by omega), upd_ne _ _ (by omega)]
        have h1 := ho k h0 (by omega)
        rw [hkp] at h1
        exact hlt.ntrans _ _ _ h1 (ho c hpos hc)
    · intro hpos
      have h4 := halfPar_decr c hpos
      rw [hfill, upd_ne _ _ (by omega)]
      exact hpar hpos (by omega)

end Verif.BinHeap
