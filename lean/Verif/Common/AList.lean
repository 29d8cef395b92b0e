/-!
# Finite maps as association lists

A small specification used by several modules: a finite map is a list of key/value pairs; the first
pair with a key gives its value.
-/

namespace Verif

variable {κ υ : Type} [DecidableEq κ]

/-- the value of key `k` -/
def alGet (m : List (κ × υ)) (k : κ) : Option υ := (m.find? (·.1 = k)).map (·.2)

/-- forget key `k` -/
def alDel (m : List (κ × υ)) (k : κ) : List (κ × υ) := m.filter (·.1 ≠ k)

/-- bind key `k` to `v` -/
def alSet (m : List (κ × υ)) (k : κ) (v : υ) : List (κ × υ) := (k, v) :: alDel m k

theorem alGet_nil (k : κ) : alGet ([] : List (κ × υ)) k = none := rfl

theorem alGet_cons (k : κ) (v : υ) (m : List (κ × υ)) (q : κ) :
    alGet ((k, v) :: m) q = if q = k then some v else alGet m q := by
  unfold alGet
  rw [List.find?_cons]
  by_cases h : k = q
  · subst h; simp
  · simp [h, Ne.symm h]

theorem alDel_cons (k : κ) (p : κ × υ) (m : List (κ × υ)) :
    alDel (p :: m) k = if p.1 = k then alDel m k else p :: alDel m k := by
  unfold alDel; rw [List.filter_cons]; by_cases h : p.1 = k <;> simp [h]

theorem alGet_del (k : κ) : ∀ (m : List (κ × υ)) (q : κ),
    alGet (alDel m k) q = if q = k then none else alGet m q := by
  intro m
  induction m with
  | nil => intro q; simp [alGet, alDel]
  | cons p m ih =>
    intro q
    obtain ⟨k1, v1⟩ := p
    rw [alDel_cons]
    by_cases h : k1 = k
    · subst h
      rw [if_pos rfl, ih, alGet_cons]
      by_cases hq : q = k1 <;> simp [hq]
    · simp only [h, if_false]
      rw [alGet_cons, alGet_cons, ih]
      by_cases hq : q = k1
      · subst hq; simp [h]
      · simp [hq]

theorem alGet_set (k : κ) (v : υ) (m : List (κ × υ)) (q : κ) :
    alGet (alSet m k v) q = if q = k then some v else alGet m q := by
  unfold alSet
  rw [alGet_cons, alGet_del]
  by_cases h : q = k <;> simp [h]

theorem alGet_none_iff {m : List (κ × υ)} {k : κ} : alGet m k = none ↔ ∀ p ∈ m, p.1 ≠ k := by
  unfold alGet
  simp

theorem alGet_mem {m : List (κ × υ)} {k : κ} {v : υ} (h : alGet m k = some v) : (k, v) ∈ m := by
  unfold alGet at h
  cases hf : m.find? (·.1 = k) with
  | none => rw [hf] at h; cases h
  | some p =>
    rw [hf] at h
    simp only [Option.map_some, Option.some.injEq] at h
    have h1 : p.1 = k := by simpa using List.find?_some hf
    have h2 := List.mem_of_find?_eq_some hf
    rw [← h1, ← h]; exact h2

/-- with distinct keys, membership and lookup agree -/
theorem mem_iff_alGet {m : List (κ × υ)} (hn : (m.map Prod.fst).Nodup) {k : κ} {v : υ} :
    (k, v) ∈ m ↔ alGet m k = some v := by
  refine ⟨?_, alGet_mem⟩
  induction m with
  | nil => intro h; cases h
  | cons p m ih =>
    intro h
    obtain ⟨k1, v1⟩ := p
    rw [List.map_cons, List.nodup_cons] at hn
    rw [alGet_cons]
    rcases List.mem_cons.1 h with h | h
    · cases h; simp
    · have hne : k ≠ k1 := fun he => hn.1 (List.mem_map.2 ⟨(k, v), h, he⟩)
      simp only [hne, if_false]
      exact ih hn.2 h

theorem alDel_keys_nodup {m : List (κ × υ)} (hn : (m.map Prod.fst).Nodup) (k : κ) :
    ((alDel m k).map Prod.fst).Nodup :=
  hn.sublist (List.Sublist.map _ List.filter_sublist)

theorem alDel_not_mem (m : List (κ × υ)) (k : κ) : k ∉ (alDel m k).map Prod.fst := by
  intro h
  obtain ⟨p, hp, he⟩ := List.mem_map.1 h
  have := (List.mem_filter.1 hp).2
  simp [he] at this

theorem alSet_keys_nodup {m : List (κ × υ)} (hn : (m.map Prod.fst).Nodup) (k : κ) (v : υ) :
    ((alSet m k v).map Prod.fst).Nodup := by
  unfold alSet
  rw [List.map_cons, List.nodup_cons]
  exact ⟨alDel_not_mem m k, alDel_keys_nodup hn k⟩

omit [DecidableEq κ] in
theorem keys_nodup_nodup {m : List (κ × υ)} (hn : (m.map Prod.fst).Nodup) : m.Nodup :=
  List.Pairwise.of_map Prod.fst (fun _ _ hab he => hab (by rw [he])) hn

end Verif
