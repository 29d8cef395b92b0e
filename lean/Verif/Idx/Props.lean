import Verif.Idx.Proofs
import Verif.Common.AList

/-!
# Properties of the radix index (C10)
-/

namespace Verif.Idx

/-- The specification: a finite map kept as a list of key/object pairs (`Verif.Common.AList`). -/
abbrev Map := List (List Byte × Nat)

/-- Histories of `idx_add` and `idx_delete` that did not abort, with the map they should produce. -/
inductive Reach : Layer → Map → Prop where
  | create : Reach create []
  | add {t m k o t'} : Reach t m → add t k (some o) = some (t', .ok) → Reach t' ((k, o) :: m)
  | addFail {t m k o t' rc} : Reach t m → add t k o = some (t', rc) → rc ≠ .ok → Reach t' m
  | delete {t m k after t' r} : Reach t m → delete t k after = some (t', r) → Reach t' (alDel m k)

structure Ok (t : Layer) (m : Map) : Prop where
  nn : NN t
  counted : Counted t
  find : ∀ k, find t k = alGet m k
  keys : (m.map Prod.fst).Nodup
  nonempty : ∀ p ∈ m, p.1 ≠ []

theorem delete_ok {t : Layer} {m : Map} (h : Ok t m) {k : List Byte} {after : Byte} {t' : Layer}
    {r : Option Nat} (hd : delete t k after = some (t', r)) :
    r = alGet m k ∧ Ok t' (alDel m k) := by
  have hkeys : ((alDel m k).map Prod.fst).Nodup :=
    alDel_keys_nodup h.keys k
  have hne : ∀ p ∈ alDel m k, p.1 ≠ [] := fun p hp => h.nonempty p (List.mem_filter.1 hp).1
  unfold delete at hd
  cases ha : delAt t k with
  | none =>
    rw [ha] at hd
    simp only [Option.some.injEq, Prod.mk.injEq] at hd
    obtain ⟨rfl, rfl⟩ := hd
    have hn := delAt_none _ _ ha
    have hg : alGet m k = none := by rw [← h.find]; exact hn
    refine ⟨hg.symm, h.nn, h.counted, ?_, hkeys, hne⟩
    intro q
    rw [alGet_del]
    split
    · rename_i hq; rw [hq]; exact hn
    · exact h.find q
  | some p =>
    obtain ⟨t1, o⟩ := p
    rw [ha] at hd
    obtain ⟨e1, e2, e3⟩ := find_delAt _ _ _ _ ha
    have hc := counted_delAt _ _ _ _ h.counted ha
    have hp := path_delAt _ _ _ _ ha
    cases k with
    | nil => cases t <;> (unfold delAt at ha; cases ha)
    | cons b k =>
      obtain ⟨i1, i2⟩ := purgeLayers_id after hc hp
      by_cases hx : 255 ∈ asserted after k
      · simp only [i2 hx, Option.map_none] at hd; cases hd
      · simp only [i1 hx, Option.map_some, Option.some.injEq, Prod.mk.injEq] at hd
        obtain ⟨rfl, rfl⟩ := hd
        refine ⟨by rw [e1, h.find], e2, hc, ?_, hkeys, hne⟩
        intro q
        rw [e3, alGet_del, h.find]

theorem add_cases {t : Layer} {k : List Byte} {o : Option Nat} {t' : Layer} {rc : Rc}
    (h : add t k o = some (t', rc)) :
    (rc = .einval ∧ o = none ∧ t' = t) ∨ (rc = .eexist ∧ o ≠ none ∧ (find t k).isSome ∧ t' = t) ∨
    (∃ v, rc = .ok ∧ o = some v ∧ find t k = none ∧ k ≠ [] ∧ t' = addAt t k v) := by
  unfold add at h
  split at h
  · simp only [Option.some.injEq, Prod.mk.injEq] at h
    exact .inl ⟨h.2.symm, rfl, h.1.symm⟩
  · rename_i v
    split at h
    · rename_i hs
      simp only [Option.some.injEq, Prod.mk.injEq] at h
      exact .inr (.inl ⟨h.2.symm, by simp, hs, h.1.symm⟩)
    · rename_i hs
      split at h
      · cases h
      · rename_i hk
        simp only [Option.some.injEq, Prod.mk.injEq] at h
        exact .inr (.inr ⟨v, h.2.symm, rfl, by simpa using hs, hk, h.1.symm⟩)

theorem reach_ok {t : Layer} {m : Map} (h : Reach t m) : Ok t m := by
  induction h with
  | create => exact ⟨rfl, counted_new, fun k => find_new k, List.nodup_nil, fun p hp => by cases hp⟩
  | addFail _ ha hrc ih =>
    rcases add_cases ha with ⟨_, _, rfl⟩ | ⟨_, _, _, rfl⟩ | ⟨v, rfl, _⟩
    · exact ih
    · exact ih
    · exact absurd rfl hrc
  | add _ ha ih =>
    rename_i t m k o t' _
    rcases add_cases ha with ⟨e, _⟩ | ⟨e, _⟩ | ⟨v, _, hv, hn, hk, rfl⟩
    · cases e
    · cases e
    · cases hv
      refine ⟨addAt_nn ih.nn k o, counted_addAt o k t ih.counted, ?_, ?_, ?_⟩
      · intro q; rw [find_addAt o k t ih.nn hk, alGet_cons, ih.find]
      · rw [List.map_cons, List.nodup_cons]
        refine ⟨?_, ih.keys⟩
        intro hm
        obtain ⟨p, hp, he⟩ := List.mem_map.1 hm
        exact alGet_none_iff.1 (by rw [← ih.find]; exact hn) p hp he
      · intro p hp
        rcases List.mem_cons.1 hp with rfl | hp
        · exact hk
        · exact ih.nonempty p hp
  | delete _ hd ih => exact (delete_ok ih hd).2

/-- C10: after any history, `idx_find` returns what the map holds for that key, for every key, including
keys that are prefixes of one another. -/
theorem idx_find_correct {t : Layer} {m : Map} (h : Reach t m) (k : List Byte) : find t k = alGet m k :=
  (reach_ok h).find k

/-- C10: adding under a non-empty key is refused with `EEXIST` exactly when the key is present and then
changes nothing, and is refused with `EINVAL` exactly for a null object. -/
theorem idx_add_result {t : Layer} {m : Map} (h : Reach t m) (k : List Byte) (hk : k ≠ []) (o : Option Nat) :
    ∃ t' rc, add t k o = some (t', rc) ∧ (rc = .einval ↔ o = none) ∧
      (rc = .eexist ↔ o ≠ none ∧ alGet m k ≠ none) ∧ (rc ≠ .ok → t' = t) := by
  have hf := (reach_ok h).find k
  unfold add
  cases o with
  | none => exact ⟨t, .einval, rfl, by simp, by simp, by simp⟩
  | some v =>
    simp only
    cases hg : alGet m k with
    | none =>
      rw [hg] at hf
      exact ⟨addAt t k v, .ok, by simp [hf, hk], by simp, by simp, by simp⟩
    | some x =>
      rw [hg] at hf
      exact ⟨t, .eexist, by simp [hf], by simp, by simp, by simp⟩

/-- C10: `idx_delete` returns the object the key had, or nothing, and afterwards that key and only that key
is gone. -/
theorem idx_delete_result {t : Layer} {m : Map} (h : Reach t m) {k : List Byte} {after : Byte} {t' : Layer}
    {r : Option Nat} (hd : delete t k after = some (t', r)) :
    r = alGet m k ∧ find t' k = none ∧ ∀ q, q ≠ k → find t' q = find t q := by
  obtain ⟨h1, h2⟩ := delete_ok (reach_ok h) hd
  refine ⟨h1, by rw [h2.find, alGet_del]; simp, ?_⟩
  intro q hq
  rw [h2.find, alGet_del, (reach_ok h).find]; simp [hq]

/-- C10: `idx_traverse` hands out every object stored, once per key it is stored under, and `idx_count` is
the number of keys. -/
theorem idx_traverse_complete {t : Layer} {m : Map} (h : Reach t m) :
    (traverse t).Perm (m.map Prod.snd) ∧ count t = m.length := by
  have hok := reach_ok h
  have hp : (entries t).Perm m := by
    apply (List.perm_ext_iff_of_nodup (entries_nodup t) (keys_nodup_nodup hok.keys)).2
    rintro ⟨k, o⟩
    rw [mem_entries, hok.find, mem_iff_alGet hok.keys]
  have h1 := hp.map Prod.snd
  rw [entries_snd] at h1
  refine ⟨h1, ?_⟩
  unfold count
  rw [h1.length_eq, List.length_map]

/-- C10: `idx_delete` never removes a layer: when the key's path exists it aborts exactly when one of the
bytes it asserts on is 255.  So emptied layers stay allocated until `idx_destroy`. -/
theorem idx_delete_aborts_iff {t : Layer} {m : Map} (h : Reach t m) {b : Byte} {k : List Byte} {after : Byte}
    (hp : alGet m (b :: k) ≠ none) : delete t (b :: k) after = none ↔ 255 ∈ asserted after k := by
  have hok := reach_ok h
  unfold delete
  cases ha : delAt t (b :: k) with
  | none => exact absurd ((hok.find _).symm.trans (delAt_none _ _ ha)) hp
  | some p =>
    obtain ⟨t1, o⟩ := p
    have hc := counted_delAt _ _ _ _ hok.counted ha
    have hpa := path_delAt _ _ _ _ ha
    obtain ⟨i1, i2⟩ := purgeLayers_id after hc hpa
    by_cases hx : 255 ∈ asserted after k
    · simp [i2 hx, hx]
    · simp [i1 hx, hx]

/-- Defect: deleting a key with a byte 255 in it aborts the program. -/
theorem idx_delete_aborts_defect :
    ∃ t m, Reach t m ∧ alGet m [1, 255, 7] = some 5 ∧ delete t [1, 255, 7] 0 = none := by
  have h := Reach.add (k := [1, 255, 7]) (o := 5) .create (t' := addAt create [1, 255, 7] 5) (by
    unfold add; rw [show find create [1, 255, 7] = none from find_new _]; simp)
  exact ⟨_, _, h, by decide, (idx_delete_aborts_iff h (by decide)).2 (by decide)⟩

/-- Defect: an empty key runs off the end of the key. -/
theorem idx_add_empty_key_defect (t : Layer) (o : Nat) : add t [] (some o) = none := by
  unfold add; simp [find_empty]

/-- three keys, one a prefix of another; the shorter one is deleted -/
example : ∃ t, Reach t [([97], 2), ([97, 98], 1)] ∧ ∃ t', delete t [97] 0 = some (t', some 2) := by
  have h1 := Reach.add (k := [97, 98]) (o := 1) .create (t' := addAt create [97, 98] 1) (by
    unfold add; rw [show find create [97, 98] = none from find_new _]; simp)
  have h2 := Reach.add (k := [97]) (o := 2) h1 (t' := addAt (addAt create [97, 98] 1) [97] 2) (by
    unfold add; rw [(reach_ok h1).find]; simp [alGet])
  refine ⟨_, h2, ?_⟩
  cases hd : delete (addAt (addAt create [97, 98] 1) [97] 2) [97] 0 with
  | none => exact absurd ((idx_delete_aborts_iff h2 (by decide)).1 hd) (by decide)
  | some r =>
    obtain ⟨t', o⟩ := r
    refine ⟨t', ?_⟩
    rw [(idx_delete_result h2 hd).1]; rfl

end Verif.Idx
