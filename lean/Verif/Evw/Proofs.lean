import Verif.Evw.Model

namespace Verif.Evw

theorem Ts.le_refl (a : Ts) : a.le a = true := by simp [Ts.le]

theorem Ts.le_iff (a b : Ts) : a.le b = true ↔ a.sec < b.sec ∨ (a.sec = b.sec ∧ a.nsec ≤ b.nsec) := by
  unfold Ts.le
  by_cases h1 : a.sec < b.sec
  · simp [h1]
  · by_cases h2 : b.sec < a.sec
    · simp [h1, h2]; omega
    · simp [h1, h2]; omega

theorem Ts.le_total {a b : Ts} (h : ¬ a.le b = true) : b.le a = true := by
  rw [Ts.le_iff] at *; omega

theorem Ts.le_trans {a b c : Ts} (h : a.le b = true) (h' : b.le c = true) : a.le c = true := by
  rw [Ts.le_iff] at *; omega

/-- a nonempty tree has a smallest entry -/
theorem exists_min (f : Nat → Ts) : ∀ l : List Nat, l ≠ [] → ∃ e ∈ l, ∀ x ∈ l, (f e).le (f x) = true := by
  intro l
  induction l with
  | nil => intro h; exact absurd rfl h
  | cons a l ih =>
    intro _
    by_cases hl : l = []
    · subst hl; exact ⟨a, by simp, by simp [Ts.le_refl]⟩
    · obtain ⟨e, he, hm⟩ := ih hl
      by_cases hc : (f a).le (f e) = true
      · refine ⟨a, by simp, ?_⟩
        intro x hx
        rcases List.mem_cons.1 hx with rfl | hx
        · exact Ts.le_refl _
        · exact Ts.le_trans hc (hm x hx)
      · refine ⟨e, by simp [he], ?_⟩
        intro x hx
        rcases List.mem_cons.1 hx with rfl | hx
        · exact Ts.le_total hc
        · exact hm x hx

@[simp] theorem upd_same {α} (f : Nat → α) (e v) : upd f e v e = v := by simp [upd]
theorem upd_ne {α} (f : Nat → α) {e x} (v) (h : x ≠ e) : upd f e v x = f x := by simp [upd, h]

/-- events that are queued or being posted -/
def busy (s : St) : List Nat := s.list.map (·.1) ++ (s.tree ++ s.claims.map (·.1))

structure Inv (s : St) : Prop where
  nodup : (busy s).Nodup
  posted : ∀ e, s.posted e = true ↔ e ∈ busy s
  known : ∀ e, s.posted e = true → s.known e = true
  imm0 : ∀ e, (e, false) ∈ s.claims → s.to e = ⟨0, 0⟩
  count : ∀ e, accepted e s.log = delivered e s.log + queued e s + inHand e s
  fifo : immAccepted s.log = immDelivered s.log ++
    ((s.cur.toList.filter (·.2)).map (·.1) ++ (s.list.filter (·.2)).map (·.1))
  wake : s.pc = .sleep → 0 < s.sem + s.owed ∨
    (s.list = [] ∧ s.flushing = false ∧ ∀ e ∈ s.tree, s.semWait.le (s.to e) = true)
  pend : (∃ now, s.pc = .tos now) → s.list = [] ∨ 0 < s.sem + s.owed
  fired : ∀ e to now fl, Obs.fired e to now fl ∈ s.log → fl = true ∨ to.le now = true

theorem inv_init : Inv init := by
  refine ⟨by simp [busy, init], by simp [busy, init], by simp [init], by simp [init], ?_, by rfl, by simp [init],
    by simp [init], by simp [init]⟩
  intro e; rfl

/-- removing an event's claim -/
theorem claims_perm : ∀ (l : List (Nat × Bool)) (e : Nat) (c : Nat × Bool), (l.map (·.1)).Nodup →
    l.find? (fun c => decide (c.1 = e)) = some c →
    c.1 = e ∧ c ∈ l ∧ (l.map (·.1)).Perm (e :: (l.filter (fun c => decide (c.1 ≠ e))).map (·.1)) := by
  intro l
  induction l with
  | nil => intro e c _ h; simp at h
  | cons a l ih =>
    intro e c hn h
    rw [List.map_cons, List.nodup_cons] at hn
    by_cases ha : a.1 = e
    · simp [ha] at h
      subst h
      refine ⟨ha, by simp, ?_⟩
      have : l.filter (fun c => decide (c.1 ≠ e)) = l := by
        rw [List.filter_eq_self]
        intro x hx
        simp only [ne_eq, decide_not, Bool.not_eq_eq_eq_not, Bool.not_true, decide_eq_false_iff_not]
        intro hxe
        exact hn.1 (by rw [ha, ← hxe]; exact List.mem_map_of_mem hx)
      rw [List.filter_cons, if_neg (by simp [ha]), this, List.map_cons, ha]
    · simp only [List.find?_cons, ha, decide_false] at h
      obtain ⟨h1, h2, h3⟩ := ih e c hn.2 h
      refine ⟨h1, List.mem_cons_of_mem _ h2, ?_⟩
      rw [List.filter_cons, if_pos (by simp [ha])]
      rw [List.map_cons, List.map_cons]
      exact (List.Perm.cons _ h3).trans (List.Perm.swap _ _ _)

theorem nodup_claims {s : St} (h : (busy s).Nodup) : (s.claims.map (·.1)).Nodup := by
  unfold busy at h
  rw [List.nodup_append] at h
  have := h.2.1
  rw [List.nodup_append] at this
  exact this.2.1

theorem nodup_tree {s : St} (h : (busy s).Nodup) : s.tree.Nodup := by
  unfold busy at h
  rw [List.nodup_append] at h
  have := h.2.1
  rw [List.nodup_append] at this
  exact this.1

theorem accepted_cons (e : Nat) (o : Obs) (l : List Obs) : accepted e (o :: l) =
    accepted e l + (match o with | .accepted x _ _ => if x = e then 1 else 0 | _ => 0) := by
  unfold accepted
  rw [List.filter_cons]
  cases o <;> simp <;> split <;> simp_all

theorem delivered_cons (e : Nat) (o : Obs) (l : List Obs) : delivered e (o :: l) =
    delivered e l + (match o with | .delivered x _ _ => if x = e then 1 else 0 | _ => 0) := by
  unfold delivered
  rw [List.filter_cons]
  cases o <;> simp <;> split <;> simp_all

theorem immAccepted_cons (o : Obs) (l : List Obs) : immAccepted (o :: l) =
    immAccepted l ++ (match o with | .accepted x false _ => [x] | _ => []) := by
  unfold immAccepted
  rw [List.reverse_cons, List.filterMap_append]
  cases o with
  | accepted e t to => cases t <;> simp
  | _ => simp

theorem immDelivered_cons (o : Obs) (l : List Obs) : immDelivered (o :: l) =
    immDelivered l ++ (match o with | .delivered x _ true => [x] | _ => []) := by
  unfold immDelivered
  rw [List.reverse_cons, List.filterMap_append]
  cases o with
  | delivered e t to => cases to <;> simp
  | _ => simp

/-- the bookkeeping of posts under a permutation of the queued events with `e` in front -/
theorem busy_remove {s t : St} {e : Nat} (hi : Inv s) (hp : (busy s).Perm (e :: busy t))
    (hpo : t.posted = upd s.posted e false) :
    (busy t).Nodup ∧ (∀ x, t.posted x = true ↔ x ∈ busy t) := by
  have hn := hp.nodup_iff.1 hi.nodup
  rw [List.nodup_cons] at hn
  refine ⟨hn.2, ?_⟩
  intro x
  rw [hpo]
  by_cases hx : x = e
  · subst hx; simp [hn.1]
  · rw [upd_ne _ _ hx, hi.posted, hp.mem_iff]; simp [hx]

theorem busy_same {s t : St} (hi : Inv s) (hp : (busy s).Perm (busy t)) (hpo : t.posted = s.posted) :
    (busy t).Nodup ∧ (∀ x, t.posted x = true ↔ x ∈ busy t) := by
  refine ⟨hp.nodup_iff.1 hi.nodup, ?_⟩
  intro x; rw [hpo, hi.posted, hp.mem_iff]

theorem step_inv {s s' : St} {a : Act} (hi : Inv s) (h : step s a = .ok s') : Inv s' := by
  cases a with
  | cas e to =>
    simp only [step] at h
    split at h
    · injection h with h; subst h
      exact ⟨hi.nodup, hi.posted, hi.known, hi.imm0, fun x => by
          have := hi.count x
          simp only [accepted_cons, delivered_cons, queued, inHand] at *; exact this,
        by simp only [immAccepted_cons, immDelivered_cons, List.append_nil]; exact hi.fifo, hi.wake, hi.pend,
        fun e to now fl hm => hi.fired e to now fl (by simpa using hm)⟩
    · rename_i hp
      injection h with h; subst h
      have hne : e ∉ busy s := fun hm => hp ((hi.posted e).2 hm)
      refine ⟨?_, ?_, ?_, ?_, fun x => hi.count x, hi.fifo, ?_, hi.pend, hi.fired⟩
      · have hpm : (busy s ++ []).Perm (busy s) := by simp
        have : (s.list.map (·.1) ++ (s.tree ++ (e :: s.claims.map (·.1)))).Perm (e :: busy s) := by
          rw [← List.append_assoc]
          refine List.perm_middle.trans ?_
          rw [List.append_assoc]; exact List.Perm.refl _
        show (s.list.map (·.1) ++ (s.tree ++ (e :: s.claims.map (·.1)))).Nodup
        rw [this.nodup_iff, List.nodup_cons]
        exact ⟨hne, hi.nodup⟩
      · intro x
        show upd s.posted e true x = true ↔ x ∈ s.list.map (·.1) ++ (s.tree ++ (e :: s.claims.map (·.1)))
        by_cases hx : x = e
        · subst hx; simp
        · rw [upd_ne _ _ hx, hi.posted]; simp [busy, hx]
      · intro x
        show upd s.posted e true x = true → upd s.known e true x = true
        by_cases hx : x = e
        · subst hx; simp
        · rw [upd_ne _ _ hx, upd_ne _ _ hx]; exact hi.known x
      · intro x hx
        simp only [List.mem_cons, Prod.mk.injEq] at hx
        rcases hx with ⟨rfl, h2⟩ | hx
        · cases to with
          | none => simp
          | some t => simp at h2
        · have : x ≠ e := by
            rintro rfl
            exact hne (by simp only [busy, List.mem_append]; exact Or.inr (Or.inr (List.mem_map_of_mem (f := (·.1)) hx)))
          simp only [upd_ne _ _ this]
          exact hi.imm0 x hx
      · intro hpc
        rcases hi.wake hpc with h | ⟨h1, h2, h3⟩
        · exact Or.inl h
        · refine Or.inr ⟨h1, h2, ?_⟩
          intro x hx
          have : x ≠ e := by
            rintro rfl
            exact hne (by simp only [busy, List.mem_append]; exact Or.inr (Or.inl hx))
          simp only [upd_ne _ _ this]
          exact h3 x hx
  | enq e =>
    simp only [step] at h
    split at h
    · cases h
    · rename_i c timed hf
      obtain ⟨h1, h2, h3⟩ := claims_perm _ _ _ (nodup_claims hi.nodup) hf
      simp only at h1; subst h1
      have hpb : (busy s).Perm (c :: (s.list.map (·.1) ++ (s.tree ++
          (s.claims.filter (fun x => decide (x.1 ≠ c))).map (·.1)))) := by
        unfold busy
        rw [← List.append_assoc, ← List.append_assoc]
        exact (h3.append_left _).trans List.perm_middle
      split at h
      · injection h with h; subst h
        obtain ⟨b1, b2⟩ := busy_remove (t := { s with posted := upd s.posted c false, claims := s.claims.filter (fun x => decide (x.1 ≠ c)), log := .refused c :: s.log }) hi hpb rfl
        refine ⟨b1, b2, ?_, ?_, fun x => by
            have := hi.count x
            simp only [accepted_cons, delivered_cons, queued, inHand] at *; exact this,
          by simp only [immAccepted_cons, immDelivered_cons, List.append_nil]; exact hi.fifo, ?_, hi.pend,
          fun e to now fl hm => hi.fired e to now fl (by simpa using hm)⟩
        · intro x hx
          simp only [upd] at hx
          split at hx
          · cases hx
          · exact hi.known x hx
        · intro x hx
          exact hi.imm0 x ((List.mem_filter.1 hx).1)
        · exact hi.wake
      · rename_i hfl
        injection h with h; subst h
        cases timed with
        | false =>
          have hz := hi.imm0 c h2
          have hle : (s.to c).le s.semWait = true := by rw [hz, Ts.le_iff]; simp only; omega
          obtain ⟨b1, b2⟩ := busy_same (t := { s with list := s.list ++ [(c, true)], claims := s.claims.filter (fun x => decide (x.1 ≠ c)), owed := s.owed + 1, log := .accepted c false (s.to c) :: s.log }) hi (by
            refine hpb.trans ?_
            simp only [busy, List.map_append, List.map_cons, List.map_nil, List.append_assoc, List.singleton_append]
            exact List.perm_middle.symm) rfl
          simp only [hle, if_true]
          refine ⟨b1, b2, hi.known, fun x hx => hi.imm0 x ((List.mem_filter.1 hx).1), ?_, ?_, ?_, ?_,
            fun e to now fl hm => hi.fired e to now fl (by simpa using hm)⟩
          · intro x
            have := hi.count x
            simp only [accepted_cons, delivered_cons, queued, inHand] at *
            simp only [Bool.false_eq_true, if_false, List.map_append, List.map_cons, List.map_nil, List.count_append,
              List.count_cons, List.count_nil, beq_iff_eq]
            omega
          · simp only [immAccepted_cons, immDelivered_cons, List.append_nil]
            rw [hi.fifo]
            simp
          · intro _; exact Or.inl (by simp only; omega)
          · intro _; exact Or.inr (by simp only; omega)
        | true =>
          obtain ⟨b1, b2⟩ := busy_same (t := { s with tree := c :: s.tree, claims := s.claims.filter (fun x => decide (x.1 ≠ c)), owed := if (s.to c).le s.semWait then s.owed + 1 else s.owed, log := .accepted c true (s.to c) :: s.log }) hi (by
            refine hpb.trans ?_
            simp only [busy, List.cons_append]
            exact List.perm_middle.symm) rfl
          simp only [if_true]
          refine ⟨b1, b2, hi.known, fun x hx => hi.imm0 x ((List.mem_filter.1 hx).1), ?_, ?_, ?_, ?_,
            fun e to now fl hm => hi.fired e to now fl (by simpa using hm)⟩
          · intro x
            have := hi.count x
            simp only [accepted_cons, delivered_cons, queued, inHand] at *
            simp only [List.count_cons, beq_iff_eq]
            omega
          · simp only [immAccepted_cons, immDelivered_cons, List.append_nil]
            rw [hi.fifo]
          · intro hpc
            by_cases hle : (s.to c).le s.semWait = true
            · simp only [hle, if_true]; exact Or.inl (by omega)
            · simp only [hle]
              rcases hi.wake hpc with h | ⟨w1, w2, w3⟩
              · exact Or.inl h
              · refine Or.inr ⟨w1, w2, ?_⟩
                intro x hx
                rcases List.mem_cons.1 hx with rfl | hx
                · exact Ts.le_total hle
                · exact w3 x hx
          · intro hpc
            rcases hi.pend hpc with h | h
            · exact Or.inl h
            · refine Or.inr ?_
              simp only
              split <;> omega
  | cancel e now =>
    simp only [step] at h
    split at h
    · cases h
    · split at h
      · injection h with h; subst h
        exact ⟨hi.nodup, hi.posted, hi.known, hi.imm0, fun x => by
            have := hi.count x
            simp only [accepted_cons, delivered_cons, queued, inHand] at *; exact this,
          by simp only [immAccepted_cons, immDelivered_cons, List.append_nil]; exact hi.fifo, hi.wake, hi.pend,
          fun e to now fl hm => hi.fired e to now fl (by simpa using hm)⟩
      · split at h
        · injection h with h; subst h
          exact ⟨hi.nodup, hi.posted, hi.known, hi.imm0, fun x => by
              have := hi.count x
              simp only [accepted_cons, delivered_cons, queued, inHand] at *; exact this,
            by simp only [immAccepted_cons, immDelivered_cons, List.append_nil]; exact hi.fifo, hi.wake, hi.pend,
            fun e to now fl hm => hi.fired e to now fl (by simpa using hm)⟩
        · split at h
          · rename_i hm
            injection h with h; subst h
            obtain ⟨b1, b2⟩ := busy_same (t := { s with tree := s.tree.erase e, list := s.list ++ [(e, false)] }) hi (by
              simp only [busy, List.map_append, List.map_cons, List.map_nil, List.append_assoc, List.singleton_append]
              refine List.Perm.append_left _ ?_
              rw [← List.cons_append]
              exact (List.perm_cons_erase hm).append_right _) rfl
            refine ⟨b1, b2, hi.known, hi.imm0, ?_, ?_, ?_, ?_, fun e to now fl hm => hi.fired e to now fl (by simpa using hm)⟩
            · intro x
              have := hi.count x
              have hc := List.count_pos_iff.2 hm
              simp only [accepted_cons, delivered_cons, queued, inHand] at *
              simp only [List.map_append, List.map_cons, List.map_nil, List.count_append, List.count_cons,
                List.count_nil, beq_iff_eq, List.count_erase]
              by_cases hx : e = x
              · subst hx; simp only [if_true]; omega
              · simp only [hx, if_false]; omega
            · simp only [immAccepted_cons, immDelivered_cons, List.append_nil]
              rw [hi.fifo]
              simp
            · intro _; exact Or.inl (by simp only; omega)
            · intro _; exact Or.inr (by simp only; omega)
          · cases h
  | flush =>
    simp only [step] at h
    injection h with h; subst h
    exact ⟨hi.nodup, hi.posted, hi.known, hi.imm0, hi.count, hi.fifo, fun _ => Or.inl (by simp only; omega), fun _ => Or.inr (by simp only; omega), hi.fired⟩
  | semPost =>
    simp only [step] at h
    split at h
    · cases h
    · injection h with h; subst h
      exact ⟨hi.nodup, hi.posted, hi.known, hi.imm0, hi.count, hi.fifo, fun _ => Or.inl (by simp only; omega), fun _ => Or.inr (by simp only; omega), hi.fired⟩
  | start now =>
    simp only [step] at h
    split at h
    · injection h with h; subst h
      exact ⟨hi.nodup, hi.posted, hi.known, hi.imm0, hi.count, hi.fifo, fun h => by simp at h, fun ⟨_, h⟩ => by simp at h, hi.fired⟩
    · cases h
  | wake now =>
    simp only [step] at h
    split at h
    · split at h
      · injection h with h; subst h
        exact ⟨hi.nodup, hi.posted, hi.known, hi.imm0, hi.count, hi.fifo, fun h => by simp at h, fun ⟨_, h⟩ => by simp at h, hi.fired⟩
      · split at h
        · injection h with h; subst h
          exact ⟨hi.nodup, hi.posted, hi.known, hi.imm0, hi.count, hi.fifo, fun h => by simp at h, fun ⟨_, h⟩ => by simp at h, hi.fired⟩
        · cases h
    · cases h
  | popImm =>
    simp only [step] at h
    split at h
    · rename_i hg
      split at h
      · cases h
      · rename_i e b r hl
        injection h with h; subst h
        obtain ⟨b1, b2⟩ := busy_remove (e := e) (t := { s with list := r, posted := upd s.posted e false }) hi (by
          simp only [busy, hl]; exact List.Perm.refl _) rfl
        refine ⟨b1, b2, ?_, hi.imm0, ?_, ?_, ?_, ?_, hi.fired⟩
        · intro x hx
          simp only [upd] at hx
          split at hx
          · cases hx
          · exact hi.known x hx
        · intro x
          have := hi.count x
          simp only [queued, inHand, hl, hg.2, List.map_cons, List.count_cons, beq_iff_eq, Option.map_some,
            Option.some.injEq] at *
          simp at this ⊢
          omega
        · have := hi.fifo
          rw [hl, hg.2] at this
          simp only [this]
          cases b <;> simp
        · intro hpc
          rw [hg.1] at hpc; cases hpc
        · rintro ⟨_, hpc⟩
          rw [hg.1] at hpc; cases hpc
    · cases h
  | toStart now =>
    simp only [step] at h
    split at h
    · rename_i hg
      injection h with h; subst h
      exact ⟨hi.nodup, hi.posted, hi.known, hi.imm0, hi.count, hi.fifo, fun h => by simp at h, fun _ => Or.inl hg.2.2, hi.fired⟩
    · cases h
  | popTo e =>
    simp only [step] at h
    split at h
    · rename_i now hpc
      split at h
      · rename_i hg
        obtain ⟨g1, g2, g3, g4⟩ := hg
        injection h with h; subst h
        obtain ⟨b1, b2⟩ := busy_remove (e := e) (t := { s with tree := s.tree.erase e, posted := upd s.posted e false }) hi (by
          simp only [busy]
          refine (List.Perm.append_left _ ((List.perm_cons_erase g2).append_right _)).trans ?_
          rw [List.cons_append]
          exact List.perm_middle) rfl
        refine ⟨b1, b2, ?_, hi.imm0, ?_, ?_, ?_, hi.pend, ?_⟩
        · intro x hx
          simp only [upd] at hx
          split at hx
          · cases hx
          · exact hi.known x hx
        · intro x
          have := hi.count x
          have hc := List.count_pos_iff.2 g2
          simp only [accepted_cons, delivered_cons, queued, inHand, g1, Option.map_some, Option.map_none,
            Option.some.injEq, List.count_erase, beq_iff_eq] at *
          simp at this ⊢
          by_cases hx : e = x
          · subst hx; simp only [if_true]; omega
          · simp only [hx, if_false]; omega
        · have := hi.fifo
          rw [g1] at this
          simp only [immAccepted_cons, immDelivered_cons, List.append_nil, this]
          simp
        · intro hp; simp only [hpc] at hp; cases hp
        · intro e' to' now' fl' hm
          rcases List.mem_cons.1 hm with h | h
          · injection h with q1 q2 q3 q4
            rw [q2, q3, q4]; exact g4
          · exact hi.fired _ _ _ _ h
      · cases h
    · cases h
  | call =>
    simp only [step] at h
    split at h
    · cases h
    · rename_i e b hc
      injection h with h; subst h
      refine ⟨hi.nodup, hi.posted, hi.known, hi.imm0, ?_, ?_, hi.wake, hi.pend, fun e to now fl hm => hi.fired e to now fl (by simpa using hm)⟩
      · intro x
        have := hi.count x
        simp only [accepted_cons, delivered_cons, queued, inHand, hc, Option.map_some, Option.some.injEq] at *
        simp at this ⊢
        omega
      · have := hi.fifo
        rw [hc] at this
        simp only [immAccepted_cons, immDelivered_cons, List.append_nil, this]
        cases b <;> simp
  | toDone now' =>
    simp only [step] at h
    split at h
    · rename_i now hpc
      split at h
      · rename_i hg
        injection h with h; subst h
        refine ⟨hi.nodup, hi.posted, hi.known, hi.imm0, hi.count, hi.fifo, ?_, fun ⟨_, h⟩ => by simp at h, hi.fired⟩
        intro _
        rcases hi.pend ⟨now, hpc⟩ with hl | hl
        · refine Or.inr ⟨hl, rfl, ?_⟩
          intro x hx
          simp only
          split
          · rename_i e he
            have := List.find?_some he
            rw [List.all_eq_true] at this
            exact this x hx
          · rename_i he
            rw [List.find?_eq_none] at he
            obtain ⟨e, h1, h2⟩ := exists_min s.to s.tree (by rintro h; rw [h] at hx; simp at hx)
            exact absurd (List.all_eq_true.2 h2) (he e h1)
        · exact Or.inl hl
      · cases h
    · cases h

end Verif.Evw
