import Verif.OvisMap.Model

/-!
# C90: maps with strings as keys
-/

namespace Verif.OvisMap

variable {V : Type}

/-! ## specification -/

/-- the value first inserted for a key, in a history of insertions with the newest first -/
def firstOf (k : Str) : List (Str × V) → Option V
  | [] => none
  | (k', v) :: ops => match firstOf k ops with
    | some w => some w
    | none => if k' = k then some v else none

/-- the different keys of a history -/
def keysOf : List (Str × V) → List Str
  | [] => []
  | (k, _) :: ops => if k ∈ keysOf ops then keysOf ops else k :: keysOf ops

/-- a history of insertions -/
def run (hash : Str → Nat) : List (Str × V) → Map V
  | [] => create
  | (k, v) :: ops => (insert hash (run hash ops) k v).1

/-! ## the order -/

theorem strcmp_eq : ∀ {a b : Str}, strcmp a b = .eq ↔ a = b
  | [], [] => by simp [strcmp]
  | [], b :: bs => by simp [strcmp]
  | a :: as, [] => by simp [strcmp]
  | a :: as, b :: bs => by
    unfold strcmp
    by_cases h1 : a < b
    · rw [if_pos h1]; simp; intro h; omega
    · rw [if_neg h1]
      by_cases h2 : b < a
      · rw [if_pos h2]; simp; intro h; omega
      · rw [if_neg h2, strcmp_eq]
        have : a = b := by omega
        simp [this]

theorem strcmp_gt : ∀ {a b : Str}, strcmp a b = .gt ↔ strcmp b a = .lt
  | [], [] => by simp [strcmp]
  | [], b :: bs => by simp [strcmp]
  | a :: as, [] => by simp [strcmp]
  | a :: as, b :: bs => by
    unfold strcmp
    by_cases h1 : a < b
    · rw [if_pos h1, if_neg (by omega), if_pos h1]; simp
    · by_cases h2 : b < a
      · rw [if_neg h1, if_pos h2, if_pos h2]; simp
      · rw [if_neg h1, if_neg h2, if_neg h2, if_neg h1]
        exact strcmp_gt

theorem strcmp_trans : ∀ {a b c : Str}, strcmp a b = .lt → strcmp b c = .lt → strcmp a c = .lt
  | [], [], _, h, _ => by simp [strcmp] at h
  | [], _ :: _, [], _, h => by simp [strcmp] at h
  | [], _ :: _, _ :: _, _, _ => rfl
  | _ :: _, [], _, h, _ => by simp [strcmp] at h
  | _ :: _, _ :: _, [], _, h => by simp [strcmp] at h
  | a :: as, b :: bs, c :: cs, h1, h2 => by
    unfold strcmp at h1 h2 ⊢
    split at h1
    · split at h2
      · rw [if_pos (by omega)]
      · split at h2
        · cases h2
        · rw [if_pos (by omega)]
    · split at h1
      · cases h1
      · split at h2
        · rw [if_pos (by omega)]
        · split at h2
          · cases h2
          · rw [if_neg (by omega), if_neg (by omega)]
            exact strcmp_trans h1 h2

theorem cmp_eq {hash : Str → Nat} {a b : Str} : elementCmp hash a b = .eq ↔ a = b := by
  unfold elementCmp
  split
  · exact strcmp_eq
  · rename_i h
    have : a ≠ b := fun e => h (e ▸ rfl)
    split <;> simp [this]

theorem cmp_gt {hash : Str → Nat} {a b : Str} : elementCmp hash a b = .gt ↔ elementCmp hash b a = .lt := by
  unfold elementCmp
  by_cases h : hash a = hash b
  · rw [if_pos h, if_pos h.symm]; exact strcmp_gt
  · have h' : ¬ hash b = hash a := fun e => h e.symm
    rw [if_neg h, if_neg h']
    by_cases h1 : hash a < hash b
    · rw [if_pos h1, if_neg (by omega)]; simp
    · rw [if_neg h1, if_pos (by omega)]; simp

theorem cmp_trans {hash : Str → Nat} {a b c : Str} (h1 : elementCmp hash a b = .lt) (h2 : elementCmp hash b c = .lt) :
    elementCmp hash a c = .lt := by
  unfold elementCmp at *
  split at h1
  · rename_i e1
    split at h2
    · rename_i e2
      rw [if_pos (e1.trans e2)]; exact strcmp_trans h1 h2
    · split at h2
      · rw [if_neg (by omega), if_pos (by omega)]
      · cases h2
  · split at h1
    · split at h2
      · rw [if_neg (by omega), if_pos (by omega)]
      · split at h2
        · rw [if_neg (by omega), if_pos (by omega)]
        · cases h2
    · cases h1

/-! ## the elements -/

/-- the elements are in order -/
def Ordered (hash : Str → Nat) (l : List (Str × V)) : Prop := l.Pairwise fun a b => elementCmp hash a.1 b.1 = .lt

theorem find_iff {hash : Str → Nat} : ∀ {l : List (Str × V)} {k : Str} {v : V}, Ordered hash l → (rbtFind hash l k = some v ↔ (k, v) ∈ l)
  | [], k, v, _ => by simp [rbtFind]
  | e :: es, k, v, h => by
    obtain ⟨h1, h2⟩ := List.pairwise_cons.1 h
    have no : ∀ {w}, elementCmp hash k e.1 ≠ .gt → (k, w) ∉ es := by
      intro w hh hm
      exact hh (cmp_gt.2 (h1 _ hm))
    unfold rbtFind
    cases hc : elementCmp hash k e.1 with
    | eq =>
      have hk := cmp_eq.1 hc
      have := no (w := v) (by simp [hc])
      simp only [Option.some.injEq, List.mem_cons, this, or_false]
      exact ⟨fun hh => by rw [hk, ← hh], fun hh => by rw [← hh]⟩
    | lt =>
      have := no (w := v) (by simp [hc])
      simp only [reduceCtorEq, List.mem_cons, this, or_false, false_iff]
      intro hh
      have : elementCmp hash k e.1 = .eq := cmp_eq.2 (by rw [← hh])
      rw [hc] at this; cases this
    | gt =>
      simp only
      rw [find_iff h2, List.mem_cons]
      refine ⟨.inr, fun hh => hh.resolve_left fun hh => ?_⟩
      have : elementCmp hash k e.1 = .eq := cmp_eq.2 (by rw [← hh])
      rw [hc] at this; cases this

theorem ins_mem {hash : Str → Nat} {k : Str} {v : V} {x : Str × V} : ∀ {l : List (Str × V)}, x ∈ rbtIns hash l k v ↔ x = (k, v) ∨ x ∈ l
  | [] => by simp [rbtIns]
  | e :: es => by
    unfold rbtIns
    split
    · simp
    · rw [List.mem_cons, ins_mem, List.mem_cons]
      constructor
      · rintro (h | h | h)
        · exact .inr (.inl h)
        · exact .inl h
        · exact .inr (.inr h)
      · rintro (h | h | h)
        · exact .inr (.inl h)
        · exact .inl h
        · exact .inr (.inr h)

theorem ins_ordered {hash : Str → Nat} {k : Str} {v : V} : ∀ {l : List (Str × V)}, Ordered hash l → (∀ w, (k, w) ∉ l) → Ordered hash (rbtIns hash l k v)
  | [], _, _ => by simp [rbtIns, Ordered]
  | e :: es, h, hn => by
    obtain ⟨h1, h2⟩ := List.pairwise_cons.1 h
    unfold rbtIns
    cases hc : elementCmp hash k e.1 with
    | lt =>
      refine List.pairwise_cons.2 ⟨?_, h⟩
      intro x hx
      rcases List.mem_cons.1 hx with rfl | hx
      · exact hc
      · exact cmp_trans hc (h1 x hx)
    | eq => exact absurd (List.mem_cons_self ..) (cmp_eq.1 hc ▸ hn e.2)
    | gt =>
      refine List.pairwise_cons.2 ⟨?_, ins_ordered h2 fun w hw => hn w (List.mem_cons_of_mem _ hw)⟩
      intro x hx
      rcases ins_mem.1 hx with rfl | hx
      · exact cmp_gt.1 hc
      · exact h1 x hx

theorem ins_length {hash : Str → Nat} {k : Str} {v : V} : ∀ {l : List (Str × V)}, (rbtIns hash l k v).length = l.length + 1
  | [] => rfl
  | e :: es => by
    unfold rbtIns
    split
    · rfl
    · rw [List.length_cons, ins_length, List.length_cons]

theorem first_keys {k : Str} : ∀ {ops : List (Str × V)}, firstOf k ops = none ↔ k ∉ keysOf ops
  | [] => by simp [firstOf, keysOf]
  | (k', v) :: ops => by
    have ih := first_keys (k := k) (ops := ops)
    unfold firstOf keysOf
    cases hf : firstOf k ops with
    | some w =>
      have : k ∈ keysOf ops := by
        false_or_by_contra
        rename_i hh
        rw [ih.2 hh] at hf; cases hf
      simp only [reduceCtorEq, false_iff, Decidable.not_not]
      split
      · exact this
      · exact List.mem_cons_of_mem _ this
    | none =>
      have hk := ih.1 hf
      by_cases he : k' = k
      · subst he
        simp [hk]
      · have he' : ¬ k = k' := fun hh => he hh.symm
        simp only [he, if_false]
        split <;> simp [hk, he']

theorem run_inv (hash : Str → Nat) : ∀ ops : List (Str × V), Ordered hash (run hash ops).els ∧ (run hash ops).size = (run hash ops).els.length ∧
    (run hash ops).size = (keysOf ops).length ∧ ∀ k, find hash (run hash ops) k = firstOf k ops
  | [] => ⟨by simp [run, create, Ordered], rfl, rfl, fun _ => rfl⟩
  | (k, v) :: ops => by
    obtain ⟨h1, h2, h3, h4⟩ := run_inv hash ops
    have hf := h4 k
    unfold find at hf
    rw [run, insert, hf]
    cases hk : firstOf k ops with
    | some w =>
      have hm : k ∈ keysOf ops := by
        false_or_by_contra
        rename_i hh
        rw [first_keys.2 hh] at hk; cases hk
      refine ⟨h1, h2, by simp only [keysOf, if_pos hm]; exact h3, fun k' => ?_⟩
      simp only
      rw [h4 k', firstOf]
      cases hf' : firstOf k' ops with
      | some x => rfl
      | none =>
        simp only
        rw [if_neg]
        rintro rfl
        rw [hk] at hf'; cases hf'
    | none =>
      have hm := first_keys.1 hk
      have hn : ∀ w, (k, w) ∉ (run hash ops).els := by
        intro w hw
        have := (find_iff h1).2 hw
        rw [hf, hk] at this; cases this
      have ho := ins_ordered (v := v) h1 hn
      refine ⟨ho, by simp only; rw [ins_length, h2], by simp only [keysOf, if_neg hm, List.length_cons]; rw [h3], fun k' => ?_⟩
      have key : ∀ x, rbtFind hash (rbtIns hash (run hash ops).els k v) k' = some x ↔ firstOf k' ((k, v) :: ops) = some x := by
        intro x
        rw [find_iff ho, ins_mem, ← find_iff h1]
        have := h4 k'
        unfold find at this
        rw [this, firstOf]
        by_cases he : k = k'
        · subst he
          rw [hk]
          simp [eq_comm]
        · have he' : ¬ k' = k := fun hh => he hh.symm
          cases firstOf k' ops <;> simp [he, he']
      unfold find
      simp only
      cases hr : firstOf k' ((k, v) :: ops) with
      | some x => exact (key x).2 hr
      | none =>
        cases hq : rbtFind hash (rbtIns hash (run hash ops).els k v) k' with
        | none => rfl
        | some x => rw [(key x).1 hq] at hr; cases hr

/-- *Finding.*  Whatever the hash, and whatever keys collide, a key is found exactly if it was inserted, with the value that was
inserted first. -/
theorem find_first (hash : Str → Nat) (ops : List (Str × V)) (k : Str) : find hash (run hash ops) k = firstOf k ops :=
  (run_inv hash ops).2.2.2 k

/-- *Inserting* fails exactly if the key is there, and then changes nothing. -/
theorem insert_unique (hash : Str → Nat) (ops : List (Str × V)) (k : Str) (v : V) :
    ((insert hash (run hash ops) k v).2 = 0 ↔ ∀ x ∈ ops, x.1 ≠ k) ∧
    ((insert hash (run hash ops) k v).2 ≠ 0 → (insert hash (run hash ops) k v) = (run hash ops, 76)) := by
  have hf := find_first hash ops k
  unfold find at hf
  have hn : firstOf k ops = none ↔ ∀ x ∈ ops, x.1 ≠ k := by
    clear hf
    induction ops with
    | nil => simp [firstOf]
    | cons x ops ih =>
      obtain ⟨a, b⟩ := x
      unfold firstOf
      cases h : firstOf k ops with
      | some w =>
        rw [h] at ih
        simp only [reduceCtorEq, false_iff] at ih ⊢
        exact fun hh => ih fun x hx => hh x (List.mem_cons_of_mem _ hx)
      | none =>
        have := ih.1 h
        simp only [List.mem_cons, forall_eq_or_imp]
        by_cases he : a = k <;> simp [he]
        exact fun _ _ hx => this _ hx
  unfold insert
  rw [hf, ← hn]
  cases firstOf k ops <;> simp

/-- inserting without a check is inserting, if the key is not there -/
theorem insert_new (hash : Str → Nat) (m : Map V) (k : Str) (v : V) (h : find hash m k = none) : insertNew hash m k v = insert hash m k v := by
  unfold find at h
  unfold insert insertNew
  rw [h]

/-- *The size* is the number of different keys, and *a snapshot* in an array with room for them and a NULL holds each key once with its
value; a shorter one is refused with the length that is needed.  Missing: an array of length 0 (`snapshot_zero_defect`). -/
theorem snapshot_partial (hash : Str → Nat) (ops : List (Str × V)) (len : Nat) (h0 : 0 < len) (hl : len < 2^64) :
    (run hash ops).size = (keysOf ops).length ∧
    (len ≤ (keysOf ops).length → snapshot (run hash ops) len = some (.longer ((keysOf ops).length + 1))) ∧
    ((keysOf ops).length < len → ∃ l, snapshot (run hash ops) len = some (.filled l) ∧ l.length = (keysOf ops).length ∧
      (l.map (·.1)).Nodup ∧ ∀ k v, (k, v) ∈ l ↔ firstOf k ops = some v) := by
  obtain ⟨h1, h2, h3, h4⟩ := run_inv hash ops
  have hm : (len + 18446744073709551615) % 18446744073709551616 = len - 1 := by omega
  unfold snapshot
  rw [hm]
  refine ⟨h3, fun hh => ?_, fun hh => ?_⟩
  · rw [if_pos (by omega), h3]
  · refine ⟨_, by rw [if_neg (by omega), if_pos (by omega)], by omega, ?_, fun k v => ?_⟩
    · rw [List.Nodup, List.pairwise_map]
      refine List.Pairwise.imp (fun {a b} hab he => ?_) h1
      rw [cmp_eq.2 he] at hab; cases hab
    · rw [← h4 k, find, find_iff h1]

/-- *Defect.*  An array of length 0 is written to. -/
theorem snapshot_zero_defect (hash : Str → Nat) (ops : List (Str × V)) (hs : (keysOf ops).length < 2^64) : snapshot (run hash ops) 0 = none := by
  obtain ⟨_, h2, h3, _⟩ := run_inv hash ops
  unfold snapshot
  rw [if_neg (by omega), if_neg (by omega)]

example : find (fun _ => 7) (run (fun _ => 7) [([1, 2], 'c'), ([3], 'b'), ([1, 2], 'a')]) [1, 2] = some 'a' ∧
    (run (fun _ => 7) [([1, 2], 'c'), ([3], 'b'), ([1, 2], 'a')]).size = 2 := by decide

end Verif.OvisMap
