import Verif.RingUpd.Model

/-!
# C47: a consumer sees the producer's snapshots in order
-/

namespace Verif.RingUpd

open Verif.Timestamp (Ts)

/-! ## order of timestamps -/

theorem tsLt_iff (a b : Ts) : tsLt a b = true ↔ a.sec < b.sec ∨ (a.sec = b.sec ∧ a.usec < b.usec) := by
  simp [tsLt]

theorem tsLt_trans {a b c : Ts} (h1 : tsLt a b = true) (h2 : tsLt b c = true) : tsLt a c = true := by
  rw [tsLt_iff] at *; omega

theorem tsLt_irrefl (a : Ts) : tsLt a a = false := by
  rw [← Bool.not_eq_true, tsLt_iff]; omega

/-- not later than -/
def tsLe (a b : Ts) : Prop := tsLt b a = false

theorem tsLe_iff (a b : Ts) : tsLe a b ↔ a.sec < b.sec ∨ (a.sec = b.sec ∧ a.usec ≤ b.usec) := by
  rw [tsLe, ← Bool.not_eq_true, tsLt_iff]; omega

theorem tsLt_le_trans {a b c : Ts} (h1 : tsLt a b = true) (h2 : tsLe b c) : tsLt a c = true := by
  rw [tsLt_iff] at *; rw [tsLe_iff] at h2; omega

theorem tsLe_lt_trans {a b c : Ts} (h1 : tsLe a b) (h2 : tsLt b c = true) : tsLt a c = true := by
  rw [tsLt_iff] at *; rw [tsLe_iff] at h1; omega

theorem tsLe_trans {a b c : Ts} (h1 : tsLe a b) (h2 : tsLe b c) : tsLe a c := by
  rw [tsLe_iff] at *; omega

theorem tsLe_refl (a : Ts) : tsLe a a := tsLt_irrefl a

theorem tsLt_le {a b : Ts} (h : tsLt a b = true) : tsLe a b := by
  rw [tsLt_iff] at h; rw [tsLe_iff]; omega

theorem tsLt_asymm {a b : Ts} (h : tsLt a b = true) (h' : tsLe b a) : False := by
  rw [tsLe, h] at h'; cases h'

/-! ## slots -/

/-- the index of the buffer of transaction `k` -/
def slot (n k : Nat) : Nat := (k + (n - 1)) % n

theorem slot_lt {n : Nat} (h : 0 < n) (k : Nat) : slot n k < n := Nat.mod_lt _ h

theorem slot_succ {n : Nat} (k : Nat) : (slot n k + 1) % n = slot n (k + 1) := by
  rw [slot, slot, Nat.mod_add_mod]; congr 1; omega

theorem slot_inj {n : Nat} {i j : Nat} (h : i ≤ j) (h2 : j < i + n) (he : slot n i = slot n j) : i = j := by
  apply Classical.byContradiction
  intro hne
  have hd : 0 < j - i := by omega
  have e : j + (n - 1) = (i + (n - 1)) + (j - i) := by omega
  unfold slot at he
  rw [e, ← Nat.mod_add_mod (i + (n - 1)) n (j - i)] at he
  have hlt := Nat.mod_lt (i + (n - 1)) (show 0 < n by omega)
  generalize (i + (n - 1)) % n = r at he hlt
  by_cases hr : r + (j - i) < n
  · rw [Nat.mod_eq_of_lt hr] at he; omega
  · have : (r + (j - i)) % n = r + (j - i) - n := by
      rw [Nat.mod_eq_sub_mod (by omega), Nat.mod_eq_of_lt (by omega)]
    omega

/-! ## runs -/

/-- what can happen -/
inductive Act where
  | begin (now : Ts)
  | end_ (now : Ts)
  | start
  | complete

/-- the last time recorded by the producer -/
def lastTs (s : St) : Ts := (s.rem s.pcurr).ts

/-- whether the producer is in a transaction -/
def open_ (s : St) : Prop := s.count ≠ 0 ∧ (s.rem s.pcurr).done = false

instance (s : St) : Decidable (open_ s) := inferInstanceAs (Decidable (_ ∧ _))

instance (a b : Ts) : Decidable (tsLe a b) := inferInstanceAs (Decidable (_ = _))

/-- one step.  The producer's clock does not go backwards, and time passes between the end of a
transaction and the begin of the next. -/
inductive Step : St → Act → St → Prop
  | begin {s : St} (now : Ts) : ¬ open_ s → tsLt (lastTs s) now = true →
    Step s (.begin now) (prodBegin s now)
  | end_ {s : St} (now : Ts) : open_ s → tsLe (lastTs s) now → Step s (.end_ now) (prodEnd s now)
  | start (s : St) : Step s .start (start s)
  | complete (s : St) : Step s .complete (complete s)

/-- any interleaving of producer and consumer -/
inductive Reachable (n : Nat) : St → Prop
  | init : Reachable n (init n)
  | step {s s' : St} {a : Act} : Reachable n s → Step s a s' → Reachable n s'

/-! ## invariant -/

/-- the last transaction delivered -/
def lastSnap (s : St) : Nat := (s.loc s.curr).snap

/-- `T k` is the time of transaction `k` -/
structure Inv (n : Nat) (T : Nat → Ts) (s : St) : Prop where
  card : s.n = n
  two : 2 ≤ n
  t0 : T 0 = ⟨0, 0⟩
  /-- times increase -/
  mono : ∀ i j, i < j → j ≤ s.count → tsLt (T i) (T j) = true
  pc : s.pcurr = slot n s.count
  /-- what the producer's buffers hold -/
  rem : ∀ i, i < n → (s.rem i).ts = T (s.rem i).snap ∧ (s.rem i).cidx = slot n s.count ∧
    (s.rem i).snap ≤ s.count ∧ ((s.rem i).snap ≠ 0 → slot n (s.rem i).snap = i)
  /-- the ring is complete -/
  full : ∀ k, 1 ≤ k → k ≤ s.count → s.count < k + n → (s.rem (slot n k)).snap = k
  /-- only the current transaction can be open -/
  fin : ∀ i, i < n → (s.rem i).snap ≠ 0 → (s.rem i).done = false → (s.rem i).snap = s.count
  clt : s.curr < n
  /-- the consumer's current buffer -/
  loc1 : (s.loc s.curr).snap ≤ s.count
  loc2 : slot n (s.loc s.curr).snap = s.curr
  loc3 : tsLe (s.loc s.curr).ts (T (s.loc s.curr).snap)
  loc4 : ∀ j, j < (s.loc s.curr).snap → tsLt (T j) (s.loc s.curr).ts = true
  loc5 : (s.loc s.curr).cidx < n
  /-- the range of a read in progress starts after the current buffer and does not contain it -/
  pend : ∀ a b, s.pend = some (a, b) → a = (s.curr + 1) % n ∧ a ≤ b ∧ b < n ∧ ¬ (a ≤ s.curr ∧ s.curr ≤ b)
  /-- deliveries in order, the last one being the current -/
  log1 : (s.log.map (·.1)).Pairwise (· < ·)
  log2 : ∀ k ∈ s.log.map (·.1), k ≤ lastSnap s
  log3 : ∀ p ∈ s.log, 1 ≤ p.1
  /-- an update that is over has caught up with what it read -/
  sett : (s.loc s.curr).cidx = s.curr ∨ (s.pend ≠ none ∧ lastSnap s < s.count)

theorem range_ok {s : St} {n : Nat} (hc : s.n = n) (h2 : 2 ≤ n) (hcl : s.curr < n)
    (hx : (s.loc s.curr).cidx < n) (a b : Nat) (h : range s = (a, b)) :
    a = (s.curr + 1) % n ∧ a ≤ b ∧ b < n ∧ ¬ (a ≤ s.curr ∧ s.curr ≤ b) := by
  simp only [range, Prod.mk.injEq] at h
  obtain ⟨ha, hb⟩ := h
  rw [hc] at ha hb
  have hal : a < n := by rw [← ha]; exact Nat.mod_lt _ (by omega)
  have hac : (a = s.curr + 1) ∨ (a = 0 ∧ s.curr = n - 1) := by
    by_cases hh : s.curr + 1 < n
    · left; rw [← ha]; exact Nat.mod_eq_of_lt hh
    · right
      have : s.curr + 1 = n := by omega
      rw [← ha, this, Nat.mod_self]; omega
  rw [ha] at hb
  generalize hxx : (s.loc s.curr).cidx = x at hb hx
  refine ⟨ha.symm, ?_⟩
  by_cases h1 : (x + 1) % n = a
  · rw [if_pos h1] at hb
    rw [← hb, h1]
    refine ⟨Nat.le_refl _, hal, ?_⟩
    omega
  · rw [if_neg h1] at hb
    by_cases h3 : x < a
    · rw [if_pos h3] at hb
      refine ⟨by omega, by omega, ?_⟩
      omega
    · rw [if_neg h3] at hb
      have hxn : a = 0 → x ≠ n - 1 := by
        intro h0 hx1
        apply h1
        rw [hx1, show n - 1 + 1 = n by omega, Nat.mod_self, h0]
      refine ⟨by omega, by omega, ?_⟩
      omega

theorem inv_init {n : Nat} (h : 2 ≤ n) : Inv n (fun k => ⟨k, 0⟩) (init n) := by
  have hs : slot n 0 = n - 1 := by rw [slot, Nat.zero_add]; exact Nat.mod_eq_of_lt (by omega)
  refine ⟨rfl, h, rfl, ?_, hs.symm, ?_, ?_, ?_, ?_, Nat.le_refl _, hs, ?_, ?_, ?_, ?_, ?_, ?_, ?_, Or.inl rfl⟩
  · intro i j hij hj; simp only [init] at hj; omega
  · intro i hi; exact ⟨rfl, hs.symm, Nat.le_refl _, fun h => absurd rfl h⟩
  · intro k h1 h2; simp only [init] at h2; omega
  · intro i _ h0; exact absurd rfl h0
  · show n - 1 < n; omega
  · exact tsLe_refl _
  · intro j hj; exact absurd hj (Nat.not_lt_zero _)
  · show n - 1 < n; omega
  · intro a b hp; cases hp
  · exact List.Pairwise.nil
  · intro k hk; cases hk
  · intro k hk; cases hk

/-- the loop delivers buffers of strictly later transactions -/
theorem loop_spec {n K : Nat} {T : Nat → Ts} (ht0 : T 0 = ⟨0, 0⟩) (hmono : ∀ i j, i < j → j ≤ K → tsLt (T i) (T j) = true)
    (loc : Nat → Rb) (to c : Nat)
    (b : Nat) : ∀ (m a curr : Nat) (more : Bool), a + m = b → b ≤ n →
    (∀ i, a ≤ i → i < b → (loc i).ts = T (loc i).snap ∧ (loc i).snap ≤ K ∧
      ((loc i).snap ≠ 0 → slot n (loc i).snap = i)) →
    (curr < n ∧ (loc curr).snap ≤ K ∧ slot n (loc curr).snap = curr ∧
      tsLe (loc curr).ts (T (loc curr).snap) ∧
      (∀ j, j < (loc curr).snap → tsLt (T j) (loc curr).ts = true)) →
    (∀ i, a ≤ i → i < b → i ≠ curr) →
    let r := loop loc to c (List.range' a m) curr more
    (r.1 < n ∧ (loc r.1).snap ≤ K ∧ slot n (loc r.1).snap = r.1 ∧
      tsLe (loc r.1).ts (T (loc r.1).snap) ∧
      (∀ j, j < (loc r.1).snap → tsLt (T j) (loc r.1).ts = true)) ∧
    (r.1 = curr ∨ ∃ i, a ≤ i ∧ i < b ∧ r.1 = i ∧ (loc i).ts = T (loc i).snap) ∧
    (r.2.1.map fun i => (loc i).snap).Pairwise (· < ·) ∧
    (∀ i ∈ r.2.1, (loc curr).snap < (loc i).snap ∧ (loc i).snap ≤ (loc r.1).snap ∧ a ≤ i ∧ i < b) ∧
    (loc curr).snap ≤ (loc r.1).snap := by
  intro m
  induction m with
  | zero =>
    intro a curr more _ _ _ hcur _
    exact ⟨hcur, Or.inl rfl, List.Pairwise.nil, (fun i hi => by cases hi), Nat.le_refl _⟩
  | succ m ih =>
    intro a curr more hab hbn hr hcur hne
    rw [List.range'_succ]
    have hane : a ≠ curr := hne a (Nat.le_refl _) (by omega)
    simp only [loop]
    by_cases hc : a ≠ curr ∧ tsLt (loc curr).ts (loc a).ts = false
    · rw [if_pos hc]
      exact ⟨hcur, Or.inl rfl, List.Pairwise.nil, (fun i hi => by cases hi), Nat.le_refl _⟩
    · rw [if_neg hc]
      have hlt : tsLt (loc curr).ts (loc a).ts = true := by
        rw [← Bool.not_eq_false]
        intro hh; exact hc ⟨hane, hh⟩
      obtain ⟨ha1, ha2, ha3⟩ := hr a (Nat.le_refl _) (by omega)
      obtain ⟨hc1, hc2, hc3, hc4, hc5⟩ := hcur
      -- the transaction is later
      have hlater : (loc curr).snap < (loc a).snap := by
        rw [ha1] at hlt
        apply Classical.byContradiction
        intro hn
        rcases Nat.lt_or_ge (loc a).snap (loc curr).snap with h' | h'
        · exact tsLt_asymm hlt (tsLt_le (hc5 _ h'))
        · have he : (loc a).snap = (loc curr).snap := by omega
          by_cases h0 : (loc a).snap = 0
          · rw [h0, ht0, tsLt_iff] at hlt
            simp at hlt
          · exact hane (by rw [← ha3 h0, he, hc3])
      have h0 : (loc a).snap ≠ 0 := by omega
      obtain ⟨i1, i2, i3, i4, i5⟩ := ih (a + 1) a (!(decide (a = to) && decide (a = c))) (by omega) hbn
        (fun i h1 h2 => hr i (by omega) h2)
        ⟨by omega, ha2, ha3 h0, by rw [ha1]; exact tsLe_refl _,
          fun j hj => by rw [ha1]; exact hmono _ _ hj ha2⟩
        (fun i h1 h2 => by omega)
      refine ⟨i1, Or.inr ?_, ?_, ?_, Nat.le_of_lt (Nat.lt_of_lt_of_le hlater i5)⟩
      · rcases i2 with h | ⟨i, h1, h2, h3, h4⟩
        · exact ⟨a, Nat.le_refl _, by omega, h, ha1⟩
        · exact ⟨i, by omega, h2, h3, h4⟩
      · simp only [List.map_cons]
        refine List.Pairwise.cons ?_ i3
        intro k hk
        obtain ⟨i, hi, rfl⟩ := List.mem_map.1 hk
        exact (i4 i hi).1
      · intro i hi
        rcases List.mem_cons.1 hi with rfl | hi
        · exact ⟨hlater, i5, Nat.le_refl _, by omega⟩
        · have := i4 i hi
          exact ⟨by omega, this.2.1, by omega, this.2.2.2⟩

/-- the producer's current buffer -/
theorem Inv.cur {n : Nat} {T : Nat → Ts} {s : St} (h : Inv n T s) :
    (s.rem s.pcurr).snap = s.count := by
  rcases Nat.eq_zero_or_pos s.count with h0 | h0
  · have := (h.rem _ (slot_lt (by have := h.two; omega) s.count)).2.2.1
    rw [h.pc]; omega
  · rw [h.pc]; exact h.full _ h0 (Nat.le_refl _) (by have := h.two; omega)

theorem Inv.last {n : Nat} {T : Nat → Ts} {s : St} (h : Inv n T s) : lastTs s = T s.count := by
  have := (h.rem _ (slot_lt (by have := h.two; omega) s.count)).1
  rw [← h.pc, h.cur] at this
  exact this

theorem inv_begin {n : Nat} {T : Nat → Ts} {s : St} (h : Inv n T s) (now : Ts) (ho : ¬ open_ s)
    (hl : tsLt (lastTs s) now = true) :
    Inv n (fun k => if k = s.count + 1 then now else T k) (prodBegin s now) := by
  have hn : 0 < n := by have := h.two; omega
  have hc : (s.pcurr + 1) % s.n = slot n (s.count + 1) := by rw [h.card, h.pc, slot_succ]
  have hT : ∀ k, k ≤ s.count → (if k = s.count + 1 then now else T k) = T k :=
    fun k hk => if_neg (by omega)
  rw [h.last] at hl
  refine ⟨h.card, h.two, ?_, ?_, ?_, ?_, ?_, ?_, h.clt, ?_, h.loc2, ?_, ?_, h.loc5, h.pend, h.log1,
    h.log2, h.log3, h.sett.imp id fun hx => ⟨hx.1, Nat.lt_succ_of_lt hx.2⟩⟩
  · exact (hT 0 (Nat.zero_le _)).trans h.t0
  · intro i j hij hj
    have hj' : j ≤ s.count + 1 := hj
    show tsLt (if i = s.count + 1 then now else T i) (if j = s.count + 1 then now else T j) = true
    rw [hT i (by omega)]
    by_cases hjj : j = s.count + 1
    · rw [if_pos hjj]
      by_cases hi : i = s.count
      · rw [hi]; exact hl
      · exact tsLt_trans (h.mono i s.count (by omega) (Nat.le_refl _)) hl
    · rw [if_neg hjj]; exact h.mono i j hij (by omega)
  · exact hc
  · intro i hi
    by_cases hic : i = (s.pcurr + 1) % s.n
    · simp only [prodBegin, if_pos hic]
      exact ⟨by simp, hc, Nat.le_refl _, fun _ => by rw [hic, hc]⟩
    · simp only [prodBegin, if_neg hic]
      obtain ⟨h1, h2, h3, h4⟩ := h.rem i hi
      exact ⟨by rw [hT _ h3]; exact h1, hc, by omega, h4⟩
  · intro k h1 h2 h3
    have h2' : k ≤ s.count + 1 := h2
    have h3' : s.count + 1 < k + n := h3
    show (if slot n k = (s.pcurr + 1) % s.n then (⟨now, _, s.count + 1, false⟩ : Rb) else _).snap = k
    by_cases hk : k = s.count + 1
    · rw [if_pos (by rw [hc, hk])]; exact hk.symm
    · rw [if_neg (fun he => hk (slot_inj h2' h3' (by rw [he, hc])))]
      exact h.full k h1 (by omega) (by omega)
  · intro i hi
    by_cases hic : i = (s.pcurr + 1) % s.n
    · simp only [prodBegin, if_pos hic]
      exact fun _ _ => trivial
    · simp only [prodBegin, if_neg hic]
      intro h0 hd
      exfalso
      have e := h.fin i hi h0 hd
      have e2 := (h.rem i hi).2.2.2 h0
      apply ho
      refine ⟨by omega, ?_⟩
      rw [h.pc, ← e, e2]; exact hd
  · exact Nat.le_succ_of_le h.loc1
  · show tsLe (s.loc s.curr).ts (if (s.loc s.curr).snap = s.count + 1 then now else T (s.loc s.curr).snap)
    rw [hT _ h.loc1]; exact h.loc3
  · intro j hj
    have hj' : j < (s.loc s.curr).snap := hj
    show tsLt (if j = s.count + 1 then now else T j) _ = true
    have := h.loc1
    rw [hT j (by omega)]; exact h.loc4 j hj

theorem inv_end {n : Nat} {T : Nat → Ts} {s : St} (h : Inv n T s) (now : Ts) (ho : open_ s)
    (hl : tsLe (lastTs s) now) :
    Inv n (fun k => if k = s.count then now else T k) (prodEnd s now) := by
  have hn : 0 < n := by have := h.two; omega
  have hT : ∀ k, k < s.count → (if k = s.count then now else T k) = T k :=
    fun k hk => if_neg (by omega)
  have h0 : 0 < s.count := Nat.pos_of_ne_zero ho.1
  have hcur := h.cur
  rw [h.last] at hl
  have hsn : ∀ i, ((prodEnd s now).rem i).snap = (s.rem i).snap := by
    intro i; simp only [prodEnd]; split <;> rfl
  have hcx : ∀ i, ((prodEnd s now).rem i).cidx = (s.rem i).cidx := by
    intro i; simp only [prodEnd]; split <;> rfl
  refine ⟨h.card, h.two, ?_, ?_, h.pc, ?_, ?_, ?_, h.clt, h.loc1, h.loc2, ?_, ?_, h.loc5, h.pend, h.log1,
    h.log2, h.log3, h.sett⟩
  · exact (hT 0 h0).trans h.t0
  · intro i j hij hj
    have hj' : j ≤ s.count := hj
    show tsLt (if i = s.count then now else T i) (if j = s.count then now else T j) = true
    rw [hT i (by omega)]
    by_cases hjj : j = s.count
    · rw [if_pos hjj]
      exact tsLt_le_trans (h.mono i s.count (by omega) (Nat.le_refl _)) hl
    · rw [if_neg hjj]; exact h.mono i j hij hj'
  · intro i hi
    obtain ⟨h1, h2, h3, h4⟩ := h.rem i hi
    rw [hsn, hcx]
    refine ⟨?_, h2, h3, h4⟩
    by_cases hic : i = s.pcurr
    · simp only [prodEnd, if_pos hic]
      rw [hic, hcur, if_pos rfl]
    · simp only [prodEnd, if_neg hic]
      by_cases he : (s.rem i).snap = s.count
      · exfalso
        apply hic
        rw [h.pc, ← he, h4 (by omega)]
      · rw [if_neg he]; exact h1
  · intro k h1 h2 h3
    rw [hsn]; exact h.full k h1 h2 h3
  · intro i hi hz hd
    rw [hsn] at hz ⊢
    refine h.fin i hi hz ?_
    simp only [prodEnd] at hd
    by_cases hic : i = s.pcurr
    · rw [if_pos hic] at hd; cases hd
    · rw [if_neg hic] at hd; exact hd
  · show tsLe (s.loc s.curr).ts (if (s.loc s.curr).snap = s.count then now else T (s.loc s.curr).snap)
    by_cases he : (s.loc s.curr).snap = s.count
    · rw [if_pos he]; exact tsLe_trans (he ▸ h.loc3) hl
    · rw [if_neg he]; exact h.loc3
  · intro j hj
    have hj' : j < (s.loc s.curr).snap := hj
    show tsLt (if j = s.count then now else T j) _ = true
    have := h.loc1
    rw [hT j (by omega)]; exact h.loc4 j hj

/-- the newest transaction in a slot -/
theorem Inv.newest {n : Nat} {T : Nat → Ts} {s : St} (h : Inv n T s) {k : Nat} (hk : k < s.count) :
    (s.rem (slot n (k + 1))).snap = s.count - (s.count - k - 1) % n ∧
      k < s.count - (s.count - k - 1) % n := by
  have hn : 0 < n := by have := h.two; omega
  have hq := Nat.mod_lt (s.count - k - 1) hn
  have hle := Nat.mod_le (s.count - k - 1) n
  have hdiv := Nat.div_add_mod (s.count - k - 1) n
  generalize hr : (s.count - k - 1) % n = r at *
  generalize (s.count - k - 1) / n = d at hdiv
  have hs : slot n (k + 1) = slot n (s.count - r) := by
    have : s.count - r = k + 1 + n * d := by omega
    rw [this, slot, slot, show k + 1 + n * d + (n - 1) = k + 1 + (n - 1) + n * d by omega,
      Nat.add_mul_mod_self_left]
  refine ⟨?_, by omega⟩
  rw [hs]
  exact h.full _ (by omega) (by omega) (by omega)

/-- a newer transaction in the next buffer has a later time -/
theorem Inv.newer {n : Nat} {T : Nat → Ts} {s : St} (h : Inv n T s) (hk : lastSnap s < s.count) :
    tsLt (s.loc s.curr).ts (s.rem ((s.curr + 1) % n)).ts = true := by
  have hn : 0 < n := by have := h.two; omega
  have e : (s.curr + 1) % n = slot n (lastSnap s + 1) := by
    rw [← slot_succ]; exact congrArg (fun x => (x + 1) % n) h.loc2.symm
  obtain ⟨h1, h2⟩ := h.newest hk
  have hr := h.rem _ (slot_lt hn (lastSnap s + 1))
  rw [e, hr.1]
  exact tsLe_lt_trans h.loc3 (h.mono _ _ (by rw [h1]; exact h2) hr.2.2.1)

/-- the end of the loop -/
theorem loop_more (loc : Nat → Rb) (to c : Nat) : ∀ (l : List Nat) (curr : Nat) (more : Bool),
    let r := loop loc to c l curr more
    (r.1 = curr ∧ r.2.1 = [] ∧ r.2.2 = more) ∨ r.2.2 = !(decide (r.1 = to) && decide (r.1 = c)) := by
  intro l
  induction l with
  | nil => intro curr more; exact Or.inl ⟨rfl, rfl, rfl⟩
  | cons i is ih =>
    intro curr more
    simp only [loop]
    split
    · exact Or.inl ⟨rfl, rfl, rfl⟩
    · right
      rcases ih i (!(decide (i = to) && decide (i = c))) with h | h
      · rw [h.1, h.2.2]
      · exact h

theorem inv_pend {n : Nat} {T : Nat → Ts} {s : St} (h : Inv n T s) :
    Inv n T { s with pend := some (range s) } :=
  { h with
    pend := fun a b he => range_ok h.card h.two h.clt h.loc5 a b (Option.some.inj he)
    sett := h.sett.imp id fun hx => ⟨(fun h => by cases h), hx.2⟩ }

theorem inv_start {n : Nat} {T : Nat → Ts} {s : St} (h : Inv n T s) : Inv n T (start s) := by
  rw [start]
  cases hp : s.pend with
  | some p => exact h
  | none => exact inv_pend h

theorem inv_complete {n : Nat} {T : Nat → Ts} {s : St} (h : Inv n T s) : Inv n T (complete s) := by
  rw [complete]
  cases hp : s.pend with
  | none => exact h
  | some p =>
    obtain ⟨a, b⟩ := p
    obtain ⟨ha, hab, hbn, hnc⟩ := h.pend a b hp
    show Inv n T (handle s (fetch s a b) a b)
    generalize hl1 : fetch s a b = loc1
    have hcur : loc1 s.curr = s.loc s.curr := by rw [← hl1]; exact if_neg hnc
    have hin : ∀ i, a ≤ i → i ≤ b → loc1 i = s.rem i := by
      intro i h1 h2; rw [← hl1]; exact if_pos ⟨h1, h2⟩
    rw [handle]
    by_cases hno : a ≠ s.curr ∧ tsLt (loc1 s.curr).ts (loc1 a).ts = false
    · rw [if_pos hno]
      exact { h with
        loc1 := by show (loc1 s.curr).snap ≤ _; rw [hcur]; exact h.loc1
        loc2 := by show slot n (loc1 s.curr).snap = _; rw [hcur]; exact h.loc2
        loc3 := by show tsLe (loc1 s.curr).ts (T (loc1 s.curr).snap); rw [hcur]; exact h.loc3
        loc4 := by
          show ∀ j, j < (loc1 s.curr).snap → tsLt (T j) (loc1 s.curr).ts = true
          rw [hcur]; exact h.loc4
        loc5 := by show (loc1 s.curr).cidx < n; rw [hcur]; exact h.loc5
        log2 := by
          show ∀ k ∈ s.log.map (·.1), k ≤ (loc1 s.curr).snap
          rw [hcur]; exact h.log2
        pend := fun a b he => by cases he
        sett := by
          left
          show (loc1 s.curr).cidx = _
          rw [hcur]
          rcases h.sett with hx | ⟨_, hx⟩
          · exact hx
          · have hnw := h.newer hx
            rw [← ha, ← hin a (Nat.le_refl _) hab, ← hcur, hno.2] at hnw
            cases hnw }
    · rw [if_neg hno]
      dsimp only
      generalize hl2 : setCidx loc1 (loc1 a).cidx = loc2
      have e2 : ∀ i, loc2 i = { loc1 i with cidx := (loc1 a).cidx } := by intro i; rw [← hl2]; rfl
      have hcx : (loc1 a).cidx < n := by
        rw [hin a (Nat.le_refl _) hab, (h.rem a (by omega)).2.1]
        exact slot_lt (by omega) _
      have hlm := loop_more loc2 b (loc1 a).cidx (List.range' a (b + 1 - a)) s.curr false
      have hne : (loop loc2 b (loc1 a).cidx (List.range' a (b + 1 - a)) s.curr false).2.1 ≠ [] := by
        rw [show b + 1 - a = (b - a) + 1 by omega, List.range'_succ, loop,
          if_neg (by rw [e2, e2]; exact hno)]
        simp
      obtain ⟨i1, i2, i3, i4, i5⟩ := loop_spec (n := n) h.t0 h.mono loc2 b (loc1 a).cidx (b + 1)
        (b + 1 - a) a s.curr false (by omega) (by omega)
        (fun i h1 h2 => by
          obtain ⟨q1, q2, q3, q4⟩ := h.rem i (by omega)
          rw [e2 i, hin i h1 (by omega)]
          exact ⟨q1, q3, q4⟩)
        (by
          rw [e2, hcur]
          exact ⟨h.clt, h.loc1, h.loc2, h.loc3, h.loc4⟩)
        (fun i h1 h2 hi => hnc ⟨by omega, by omega⟩)
      generalize loop loc2 b (loc1 a).cidx (List.range' a (b + 1 - a)) s.curr false = r at i1 i2 i3 i4 i5 hlm hne
      have hcs : (loc2 s.curr).snap = (s.loc s.curr).snap := by rw [e2, hcur]
      have hlm : r.2.2 = !(decide (r.1 = b) && decide (r.1 = (loc1 a).cidx)) := by
        rcases hlm with hlm | hlm
        · exact absurd hlm.2.1 hne
        · exact hlm
      have hca : (loc1 a).cidx = slot n s.count := by
        rw [hin a (Nat.le_refl _) hab, (h.rem a (by omega)).2.1]
      have key : ∀ pd, (∀ a b, pd = some (a, b) →
            a = (r.1 + 1) % n ∧ a ≤ b ∧ b < n ∧ ¬ (a ≤ r.1 ∧ r.1 ≤ b)) →
          (pd = none → r.2.2 = false) → Inv n T { deliver s loc2 r with pend := pd } := by
        intro pd hpd hpn
        refine ⟨h.card, h.two, h.t0, h.mono, h.pc, h.rem, h.full, h.fin, i1.1, i1.2.1, i1.2.2.1,
          i1.2.2.2.1, i1.2.2.2.2, ?_, hpd, ?_, ?_, ?_, ?_⟩
        · show (loc2 r.1).cidx < n
          rw [e2]; exact hcx
        · show ((s.log ++ _).map _).Pairwise _
          rw [List.map_append, List.map_map]
          refine List.pairwise_append.2 ⟨h.log1, i3, ?_⟩
          intro x hx y hy
          obtain ⟨i, hi, rfl⟩ := List.mem_map.1 hy
          have := h.log2 x hx
          have h4 := (i4 i hi).1
          simp only [lastSnap] at this
          simp only [Function.comp]
          omega
        · intro k hk
          show k ≤ (loc2 r.1).snap
          simp only [deliver, List.map_append, List.mem_append, List.map_map] at hk
          rcases hk with hk | hk
          · have := h.log2 k hk
            simp only [lastSnap] at this
            omega
          · obtain ⟨i, hi, rfl⟩ := List.mem_map.1 hk
            exact (i4 i hi).2.1
        · intro p hpm
          rcases List.mem_append.1 hpm with hpm | hpm
          · exact h.log3 p hpm
          · obtain ⟨i, hi, rfl⟩ := List.mem_map.1 hpm
            have := (i4 i hi).1
            simp only
            omega
        · show (loc2 r.1).cidx = r.1 ∨ (pd ≠ none ∧ (loc2 r.1).snap < s.count)
          rw [e2]
          by_cases hrc : (loc1 a).cidx = r.1
          · exact Or.inl hrc
          · refine Or.inr ⟨?_, ?_⟩
            · intro hpe
              have := hpn hpe
              rw [hlm] at this
              simp only [Bool.not_eq_false', Bool.and_eq_true, decide_eq_true_eq] at this
              exact hrc this.2.symm
            · have h1 := i1.2.1
              have h2 := i1.2.2.1
              rw [e2] at h1 h2
              apply Nat.lt_of_le_of_ne h1
              intro he
              have he' : (loc1 r.1).snap = s.count := he
              apply hrc
              rw [hca, ← he']
              exact h2
      by_cases hm : r.2.2 = true
      · rw [if_pos hm]
        refine key _ (fun a b he => range_ok (s := deliver s loc2 r) h.card h.two i1.1 ?_ a b
          (Option.some.inj he)) (fun he => by cases he)
        show (loc2 r.1).cidx < n
        rw [e2]; exact hcx
      · rw [if_neg hm]
        exact key none (fun a b he => by cases he) (fun _ => by simpa using hm)

theorem reach_inv {n : Nat} (h2 : 2 ≤ n) {s : St} (h : Reachable n s) : ∃ T, Inv n T s := by
  induction h with
  | init => exact ⟨_, inv_init h2⟩
  | step _ hs ih =>
    obtain ⟨T, ih⟩ := ih
    cases hs with
    | begin now ho hl => exact ⟨_, inv_begin ih now ho hl⟩
    | end_ now ho hl => exact ⟨_, inv_end ih now ho hl⟩
    | start => exact ⟨T, inv_start ih⟩
    | complete => exact ⟨T, inv_complete ih⟩

/-! ## catching up with a producer that is not writing -/

/-- `n` completions in a row -/
def completes : Nat → St → St
  | 0, s => s
  | k + 1, s => completes k (complete s)

theorem complete_prod (s : St) : (complete s).rem = s.rem ∧ (complete s).count = s.count ∧
    (complete s).pcurr = s.pcurr ∧ (complete s).n = s.n := by
  rw [complete]
  split
  · exact ⟨rfl, rfl, rfl, rfl⟩
  · rw [handle]
    split
    · exact ⟨rfl, rfl, rfl, rfl⟩
    · dsimp only
      split <;> exact ⟨rfl, rfl, rfl, rfl⟩

theorem loop_all (loc : Nat → Rb) (to c : Nat) : ∀ (m a curr : Nat) (more : Bool),
    (∀ i, a ≤ i → i < a + m → tsLt (loc i).ts (loc (i + 1)).ts = true) →
    tsLt (loc curr).ts (loc a).ts = true →
    loop loc to c (List.range' a (m + 1)) curr more =
      (a + m, List.range' a (m + 1), !(decide (a + m = to) && decide (a + m = c))) := by
  intro m
  induction m with
  | zero =>
    intro a curr more _ h
    simp [List.range'_succ, loop, h]
  | succ m ih =>
    intro a curr more h1 h
    rw [List.range'_succ, loop, if_neg (by rw [h]; simp)]
    dsimp only
    rw [ih (a + 1) a _ (fun i hi hi2 => h1 i (by omega) (by omega)) (h1 a (Nat.le_refl _) (by omega))]
    simp only [show a + 1 + m = a + (m + 1) by omega]

theorem slot_add {n : Nat} (j i : Nat) (h : slot n j + i < n) : slot n (j + i) = slot n j + i := by
  have : slot n (j + i) = (slot n j + i) % n := by
    rw [slot, slot, Nat.mod_add_mod]; congr 1; omega
  rw [this, Nat.mod_eq_of_lt h]

/-- a read of consecutive newer transactions `j, …, j + m` delivers them all -/
theorem round_spec {n : Nat} {T : Nat → Ts} {s : St} (h : Inv n T s) (ho : ¬ open_ s) {a b j m : Nat}
    (hp : s.pend = some (a, b)) (hj : lastSnap s < j) (hjm : j + m ≤ s.count) (hjn : s.count < j + n)
    (ha : a = slot n j) (hb : b = a + m) (hbn : b < n) :
    (complete s).log = s.log ++ (List.range' j (m + 1)).map (fun k => (k, true)) ∧
    lastSnap (complete s) = j + m ∧ (complete s).curr = b ∧
    ((complete s).loc (complete s).curr).cidx = slot n s.count ∧
    (complete s).pend = if b = slot n s.count then none else some (range (complete s)) := by
  have hn : 0 < n := by omega
  obtain ⟨hpa, _, _, hnc⟩ := h.pend a b hp
  have hsn : ∀ i, i ≤ m → (s.rem (a + i)).snap = j + i := by
    intro i hi
    have := h.full (j + i) (by omega) (by omega) (by omega)
    rwa [slot_add j i (by omega), ← ha] at this
  have hts : ∀ i, i ≤ m → (s.rem (a + i)).ts = T (j + i) := by
    intro i hi
    rw [(h.rem (a + i) (by omega)).1, hsn i hi]
  have hdn : ∀ i, i ≤ m → (s.rem (a + i)).done = true := by
    intro i hi
    rw [← Bool.not_eq_false]
    intro hd
    have e := h.fin (a + i) (by omega) (by rw [hsn i hi]; omega) hd
    have e2 := (h.rem (a + i) (by omega)).2.2.2 (by rw [hsn i hi]; omega)
    apply ho
    refine ⟨by omega, ?_⟩
    rw [h.pc, ← e, e2]; exact hd
  have hcx : (s.rem a).cidx = slot n s.count := (h.rem a (by omega)).2.1
  have hin : ∀ i, i ≤ m → fetch s a b (a + i) = s.rem (a + i) := by
    intro i hi
    exact if_pos ⟨by omega, by omega⟩
  have hcur : fetch s a b s.curr = s.loc s.curr := if_neg hnc
  have hin0 := hin 0 (Nat.zero_le _)
  have hts0 := hts 0 (Nat.zero_le _)
  simp only [Nat.add_zero] at hin0 hts0
  have hfirst : tsLt (s.loc s.curr).ts (T j) = true :=
    tsLe_lt_trans h.loc3 (h.mono _ _ hj (by omega))
  have hc : complete s = handle s (fetch s a b) a b := by rw [complete, hp]
  rw [hc, handle, if_neg (by rw [hcur, hin0, hts0, hfirst]; simp)]
  dsimp only
  have e1 : b + 1 - a = m + 1 := by omega
  have hcx' : (fetch s a b a).cidx = slot n s.count := by rw [hin0, hcx]
  rw [e1, hcx', loop_all (setCidx (fetch s a b) (slot n s.count)) b (slot n s.count) m a s.curr false]
  rotate_left
  · intro i hi hi2
    obtain ⟨d, rfl⟩ := Nat.exists_eq_add_of_le hi
    show tsLt (fetch s a b (a + d)).ts (fetch s a b (a + (d + 1))).ts = true
    rw [hin d (by omega), hin (d + 1) (by omega), hts d (by omega), hts (d + 1) (by omega)]
    exact h.mono _ _ (by omega) (by omega)
  · show tsLt (fetch s a b s.curr).ts (fetch s a b a).ts = true
    rw [hcur, hin0, hts0]; exact hfirst
  rw [← hb]
  generalize hrr : (b, List.range' a (m + 1), !(decide (b = b) && decide (b = slot n s.count))) = r
  generalize hs1 : deliver s (setCidx (fetch s a b) (slot n s.count)) r = s1
  have hlog : s1.log = s.log ++ (List.range' j (m + 1)).map (fun k => (k, true)) := by
    rw [← hs1, ← hrr]
    show s.log ++ _ = _
    congr 1
    apply List.ext_getElem
    · simp
    · intro i h1 h2
      simp only [List.length_map, List.length_range'] at h1
      simp only [List.getElem_map, List.getElem_range', Nat.one_mul]
      show ((fetch s a b (a + i)).snap, (fetch s a b (a + i)).done) = _
      rw [hin i (by omega), hsn i (by omega), hdn i (by omega)]
  have hcu : s1.curr = b := by rw [← hs1, ← hrr]; rfl
  have hlo : s1.loc = setCidx (fetch s a b) (slot n s.count) := by rw [← hs1]; rfl
  have hls : lastSnap s1 = j + m := by
    rw [lastSnap, hcu, hlo]
    show (fetch s a b b).snap = _
    have e : fetch s a b b = s.rem (a + m) := by rw [← hin m (Nat.le_refl _), ← hb]
    rw [e, hsn m (Nat.le_refl _)]
  have hci : (s1.loc s1.curr).cidx = slot n s.count := by rw [hlo]; rfl
  have hpn : s1.pend = none := by rw [← hs1]; rfl
  have hr2 : r.2.2 = !(decide (b = slot n s.count)) := by rw [← hrr]; simp
  rw [hr2]
  by_cases hbc : b = slot n s.count
  · simp only [hbc, decide_true, Bool.not_true, Bool.false_eq_true, if_false, if_true]
    exact ⟨hlog, hls, by rw [hcu, hbc], hci, hpn⟩
  · simp only [hbc, decide_false, Bool.not_false, if_true, if_false]
    exact ⟨hlog, hls, hcu, hci, rfl⟩

theorem open_complete {s : St} (ho : ¬ open_ s) : ¬ open_ (complete s) := by
  obtain ⟨h1, h2, h3, _⟩ := complete_prod s
  rw [open_, h1, h2, h3]; exact ho

/-- in the middle of an update that has found new data -/
structure Mid (n : Nat) (s : St) : Prop where
  lt : lastSnap s < s.count
  near : s.count < lastSnap s + n
  cidx : (s.loc s.curr).cidx = slot n s.count
  pend : s.pend = some (range s)

/-- the rest of an update -/
theorem mid_round {n : Nat} {T : Nat → Ts} {s : St} (h : Inv n T s) (ho : ¬ open_ s) (hm : Mid n s) :
    ∃ m, lastSnap (complete s) = lastSnap s + 1 + m ∧
      (complete s).log = s.log ++ (List.range' (lastSnap s + 1) (m + 1)).map (fun k => (k, true)) ∧
      ((complete s).pend = none ∧ lastSnap s + 1 + m = s.count ∨
        Mid n (complete s) ∧ (complete s).curr = n - 1 ∧ s.curr ≠ n - 1) := by
  have hn : 0 < n := by have := h.two; omega
  obtain ⟨hlt, hnear, hcx, hp⟩ := hm
  have hcurr : s.curr = slot n (lastSnap s) := h.loc2.symm
  have hfrom : (s.curr + 1) % n = slot n (lastSnap s + 1) := by rw [hcurr, slot_succ]
  have hsl := slot_lt hn (lastSnap s + 1)
  -- where the newest transaction is
  have hd : s.count = lastSnap s + 1 + (s.count - (lastSnap s + 1)) := by omega
  generalize hmm : s.count - (lastSnap s + 1) = m at hd
  have hrange : range s = (slot n (lastSnap s + 1),
      if slot n s.count < slot n (lastSnap s + 1) then n - 1 else slot n s.count) := by
    have hne : (slot n s.count + 1) % n ≠ slot n (lastSnap s + 1) := by
      rw [slot_succ]
      intro he
      have := slot_inj (n := n) (i := lastSnap s + 1) (j := s.count + 1) (by omega) (by omega) he.symm
      omega
    simp only [range, h.card, hcx, hfrom]
    rw [if_neg hne]
  by_cases hw : slot n (lastSnap s + 1) + m < n
  · -- no wrap around
    have hK : slot n s.count = slot n (lastSnap s + 1) + m := by
      exact (congrArg (slot n) hd).trans (slot_add _ _ hw)
    rw [if_neg (by omega)] at hrange
    obtain ⟨r1, r2, r3, r4, r5⟩ := round_spec h ho (j := lastSnap s + 1) (m := m) (hp.trans (by rw [hrange]))
      (by omega) (by omega) (by omega) rfl hK (by omega)
    exact ⟨m, r2, r1, Or.inl ⟨by rw [r5, if_pos rfl], by omega⟩⟩
  · -- read to the end of the array first
    have hK : slot n s.count = slot n (lastSnap s + 1) + m - n := by
      have : slot n s.count = (slot n (lastSnap s + 1) + m) % n := by
        refine (congrArg (slot n) hd).trans ?_
        rw [slot, slot, Nat.mod_add_mod]; congr 1; omega
      rw [this, Nat.mod_eq_sub_mod (by omega), Nat.mod_eq_of_lt (by omega)]
    rw [if_pos (by omega)] at hrange
    obtain ⟨r1, r2, r3, r4, r5⟩ := round_spec h ho (j := lastSnap s + 1)
      (m := n - 1 - slot n (lastSnap s + 1)) (hp.trans (by rw [hrange]))
      (by omega) (by omega) (by omega) rfl (by omega) (by omega)
    obtain ⟨c1, c2, c3, c4⟩ := complete_prod s
    refine ⟨_, r2, r1, Or.inr ⟨⟨?_, ?_, ?_, ?_⟩, r3, ?_⟩⟩
    · rw [r2, c2]; omega
    · rw [r2, c2]; omega
    · rw [r4, c2]
    · rw [r5, if_neg (by omega)]
    · intro hc
      rw [← hfrom, hc, show n - 1 + 1 = n by omega, Nat.mod_self] at hw
      omega

theorem mid_end {n : Nat} {T : Nat → Ts} {s : St} (h : Inv n T s) (ho : ¬ open_ s) (hm : Mid n s) :
    ∃ r, r ≤ 2 ∧ (completes r s).pend = none ∧ (completes r s).rem = s.rem ∧
      (completes r s).log = s.log ++
        (List.range' (lastSnap s + 1) (s.count - lastSnap s)).map (fun k => (k, true)) := by
  have hlt := hm.lt
  obtain ⟨m, r1, r2, r3⟩ := mid_round h ho hm
  rcases r3 with ⟨r3, r4⟩ | ⟨r3, r4, r5⟩
  · exact ⟨1, by omega, r3, (complete_prod s).1, by
      rw [show s.count - lastSnap s = m + 1 by omega]; exact r2⟩
  · obtain ⟨m', q1, q2, q3⟩ := mid_round (inv_complete h) (open_complete ho) r3
    rcases q3 with ⟨q3, q4⟩ | ⟨_, _, q5⟩
    · refine ⟨2, by omega, q3, (complete_prod _).1.trans (complete_prod s).1, ?_⟩
      show (complete (complete s)).log = _
      rw [q2, r2, r1, List.append_assoc, ← List.map_append,
        show s.count - lastSnap s = (m + 1) + (m' + 1) by
          have := (complete_prod s).2.1
          omega,
        ← List.range'_append_1 (s := lastSnap s + 1) (m := m + 1) (n := m' + 1),
        show lastSnap s + 1 + m + 1 = lastSnap s + 1 + (m + 1) by omega]
    · exact absurd r4 q5

/-- The range an update with nothing outstanding starts with: the next buffer. -/
theorem range_settled {n : Nat} {s : St} (hc : s.n = n) (hx : (s.loc s.curr).cidx = s.curr) :
    range s = ((s.curr + 1) % n, (s.curr + 1) % n) := by
  simp only [range, hc, hx, if_true]

/-! ## the property -/

/-- *Delivery in order, at most once.*  However the reads of the consumer and the transactions of the
producer are interleaved, the updates delivered to the consumer are numbered in strictly increasing
order: no snapshot is delivered twice and none after a later one. -/
theorem delivered_in_order {n : Nat} (h2 : 2 ≤ n) {s : St} (h : Reachable n s) :
    (s.log.map (·.1)).Pairwise (· < ·) ∧ ∀ p ∈ s.log, 1 ≤ p.1 ∧ p.1 ≤ s.count := by
  obtain ⟨T, hi⟩ := reach_inv h2 h
  refine ⟨hi.log1, fun p hp => ⟨hi.log3 p hp, ?_⟩⟩
  exact Nat.le_trans (hi.log2 p.1 (List.mem_map.2 ⟨p, hp, rfl⟩)) hi.loc1

/-- *Catching up.*  While the producer is between transactions, an update makes at most three reads.
It delivers nothing when the consumer already has the newest snapshot, and otherwise snapshots
`j, j + 1, …` up to the newest, complete and in order, where `j` is the oldest snapshot still in the
ring in the buffer after the consumer's. -/
theorem update_catches_up {n : Nat} (h2 : 2 ≤ n) {s : St} (h : Reachable n s) (ho : ¬ open_ s)
    (hp : s.pend = none) :
    ∃ r, r ≤ 3 ∧ (completes r (start s)).pend = none ∧ (completes r (start s)).log = s.log ++
      (if lastSnap s = s.count then []
       else (List.range' (s.count - (s.count - lastSnap s - 1) % n)
          ((s.count - lastSnap s - 1) % n + 1)).map (fun k => (k, true))) := by
  obtain ⟨T, hi⟩ := reach_inv h2 h
  have hn : 0 < n := by omega
  have hst : start s = { s with pend := some (range s) } := by rw [start, hp]
  have hset : (s.loc s.curr).cidx = s.curr := by
    rcases hi.sett with hx | hx
    · exact hx
    · exact absurd hp hx.1
  have hrg : range s = ((s.curr + 1) % n, (s.curr + 1) % n) := range_settled hi.card hset
  have hs1 := inv_start hi
  have hpe : (start s).pend = some ((s.curr + 1) % n, (s.curr + 1) % n) := by rw [hst, ← hrg]
  have hfrom : (s.curr + 1) % n = slot n (lastSnap s + 1) := by
    rw [← slot_succ]; exact congrArg (fun x => (x + 1) % n) hi.loc2.symm
  have hl : lastSnap (start s) = lastSnap s := by rw [hst]; rfl
  have hlog : (start s).log = s.log := by rw [hst]
  have hcnt : (start s).count = s.count := by rw [hst]
  have ho' : ¬ open_ (start s) := by rw [hst]; exact ho
  by_cases he : lastSnap s = s.count
  · -- nothing new
    rw [if_pos he, List.append_nil]
    obtain ⟨_, _, _, hnc⟩ := hs1.pend _ _ hpe
    refine ⟨1, by omega, ?_⟩
    have hno : tsLt ((fetch (start s) ((s.curr + 1) % n) ((s.curr + 1) % n)) (start s).curr).ts
        ((fetch (start s) ((s.curr + 1) % n) ((s.curr + 1) % n)) ((s.curr + 1) % n)).ts = false := by
      rw [fetch, if_neg hnc, fetch, if_pos ⟨Nat.le_refl _, Nat.le_refl _⟩, hst]
      show tsLt (s.loc s.curr).ts (s.rem ((s.curr + 1) % n)).ts = false
      obtain ⟨q1, q2, q3, q4⟩ := hi.rem ((s.curr + 1) % n) (Nat.mod_lt _ hn)
      rw [q1]
      generalize hk : (s.rem ((s.curr + 1) % n)).snap = k at *
      by_cases hkk : k < lastSnap s
      · exact tsLt_le (hi.loc4 k hkk)
      · have hke : k = lastSnap s := by omega
        by_cases h0 : k = 0
        · rw [h0, hi.t0, ← Bool.not_eq_true, tsLt_iff]; simp
        · exfalso
          have := q4 h0
          rw [hke] at this
          have hcs : s.curr = slot n (lastSnap s) := hi.loc2.symm
          rw [← hcs] at this
          apply hnc
          rw [hst]
          show _ ≤ s.curr ∧ s.curr ≤ _
          omega
    have hc : complete (start s) = handle (start s)
        (fetch (start s) ((s.curr + 1) % n) ((s.curr + 1) % n)) ((s.curr + 1) % n) ((s.curr + 1) % n) := by
      rw [complete, hpe]
    have hne : (s.curr + 1) % n ≠ (start s).curr := fun hx => hnc ⟨by omega, by omega⟩
    show (complete (start s)).pend = none ∧ (complete (start s)).log = s.log
    rw [hc, handle, if_pos ⟨hne, hno⟩]
    exact ⟨rfl, hlog⟩
  · rw [if_neg he]
    have hlt : lastSnap s < s.count := Nat.lt_of_le_of_ne hi.loc1 he
    obtain ⟨n1, n2⟩ := hi.newest hlt
    have hq := Nat.mod_lt (s.count - lastSnap s - 1) hn
    have hrm := hi.rem _ (slot_lt hn (lastSnap s + 1))
    rw [n1] at hrm
    generalize hqq : (s.count - lastSnap s - 1) % n = q at *
    have hsj : slot n (lastSnap s + 1) = slot n (s.count - q) := (hrm.2.2.2 (by omega)).symm
    obtain ⟨r1, r2, r3, r4, r5⟩ := round_spec hs1 ho' (j := s.count - q) (m := 0) hpe
      (by rw [hl]; exact n2) (by rw [hcnt]; omega) (by rw [hcnt]; omega) (by rw [hfrom, hsj]) rfl
      (Nat.mod_lt _ hn)
    rw [hcnt] at r4 r5
    rw [hlog] at r1
    have hcc : (complete (start s)).count = s.count := by rw [(complete_prod _).2.1, hcnt]
    by_cases hq0 : q = 0
    · -- one buffer
      rw [hq0] at r1 hsj ⊢
      refine ⟨1, by omega, ?_, r1⟩
      show (complete (start s)).pend = none
      rw [r5, if_pos (by rw [hfrom, hsj]; rfl)]
    · have hmid : Mid n (complete (start s)) := by
        refine ⟨?_, ?_, ?_, ?_⟩
        · rw [r2, hcc]; omega
        · rw [r2, hcc]; omega
        · rw [r4, hcc]
        · rw [r5, if_neg]
          intro hx
          rw [hfrom, hsj] at hx
          have := slot_inj (n := n) (i := s.count - q) (j := s.count) (by omega) (by omega) hx
          omega
      obtain ⟨r, hr, e1, _, e2⟩ := mid_end (inv_complete hs1) (open_complete ho') hmid
      refine ⟨r + 1, by omega, e1, ?_⟩
      show (completes r (complete (start s))).log = _
      rw [e2, r1, r2, hcc, List.append_assoc, ← List.map_append]
      congr 2
      rw [show s.count - (s.count - q + 0) = q by omega]
      have := List.range'_append_1 (s := s.count - q) (m := 1) (n := q)
      rw [show 1 + q = q + 1 by omega] at this
      exact this

/-- *Nothing is lost* while the consumer is never more than `n` snapshots behind. -/
theorem update_lossless {n : Nat} (h2 : 2 ≤ n) {s : St} (h : Reachable n s) (ho : ¬ open_ s)
    (hp : s.pend = none) (hb : s.count ≤ lastSnap s + n) :
    ∃ r, r ≤ 3 ∧ (completes r (start s)).pend = none ∧ (completes r (start s)).log = s.log ++
      (List.range' (lastSnap s + 1) (s.count - lastSnap s)).map (fun k => (k, true)) := by
  obtain ⟨r, h1, h3, h4⟩ := update_catches_up h2 h ho hp
  obtain ⟨T, hi⟩ := reach_inv h2 h
  have hle : lastSnap s ≤ s.count := hi.loc1
  refine ⟨r, h1, h3, ?_⟩
  rw [h4]
  by_cases he : lastSnap s = s.count
  · rw [if_pos he, he, Nat.sub_self]; rfl
  · rw [if_neg he, Nat.mod_eq_of_lt (by omega),
      show s.count - (s.count - lastSnap s - 1) = lastSnap s + 1 by omega,
      show s.count - lastSnap s - 1 + 1 = s.count - lastSnap s by omega]

/-- A finished transaction. -/
def tx (s : St) (t : Nat) : St := prodEnd (prodBegin s ⟨t, 0⟩) ⟨t, 1⟩

/-- Non-vacuity: a ring of three buffers; the producer is two transactions ahead, then three more. -/
def demo : St := tx (tx (tx (completes 2 (start (tx (tx (init 3) 1) 2))) 3) 4) 5

example : demo.log = [(1, true), (2, true)] ∧ demo.count = 5 ∧ lastSnap demo = 2 ∧ demo.pend = none ∧
    (completes 2 (start demo)).log = [(1, true), (2, true), (3, true), (4, true), (5, true)] := by
  decide

example : Reachable 3 demo := by
  have hb : ∀ {s : St} (t : Nat), Reachable 3 s → ¬ open_ s → tsLt (lastTs s) ⟨t, 0⟩ = true →
      open_ (prodBegin s ⟨t, 0⟩) → tsLe (lastTs (prodBegin s ⟨t, 0⟩)) ⟨t, 1⟩ → Reachable 3 (tx s t) :=
    fun t h ho h1 ho2 h2 => .step (.step h (.begin _ ho h1)) (.end_ _ ho2 h2)
  have hc : ∀ {s : St}, Reachable 3 s → Reachable 3 (complete s) := fun h => .step h (.complete _)
  have h1 : Reachable 3 (tx (tx (init 3) 1) 2) := by
    refine hb 2 (hb 1 .init ?_ ?_ ?_ ?_) ?_ ?_ ?_ ?_ <;> decide
  have h2 : Reachable 3 (completes 2 (start (tx (tx (init 3) 1) 2))) := hc (hc (.step h1 (.start _)))
  refine hb 5 (hb 4 (hb 3 h2 ?_ ?_ ?_ ?_) ?_ ?_ ?_ ?_) ?_ ?_ ?_ ?_ <;> decide

/-- *Defect.*  An update that reads while the producer is in a transaction delivers the unfinished
snapshot, and the finished one is never delivered: the consumer has already moved past its buffer. -/
theorem mid_transaction_lost_defect :
    ∃ s : St, Reachable 3 s ∧ open_ s ∧
      let s1 := complete (start s)
      s1.log = [(1, false)] ∧
      let s2 := completes 2 (start (prodEnd s1 ⟨1, 1⟩))
      s2.pend = none ∧ s2.log = [(1, false)] ∧ s2.count = 1 ∧ ¬ open_ s2 := by
  refine ⟨prodBegin (init 3) ⟨1, 0⟩, .step .init (.begin _ ?_ ?_), ?_, ?_⟩
  · decide
  · decide
  · decide
  · decide

/-- With more than `n` snapshots missed the oldest of those still in the ring are skipped too: a ring of
three, four transactions behind, delivers only the newest although two others are still there. -/
theorem ring_skips_defect :
    let s := tx (tx (tx (tx (init 3) 1) 2) 3) 4
    (s.rem 0).snap = 4 ∧ (s.rem 1).snap = 2 ∧ (s.rem 2).snap = 3 ∧
      (completes 1 (start s)).pend = none ∧ (completes 1 (start s)).log = [(4, true)] := by
  decide

end Verif.RingUpd
