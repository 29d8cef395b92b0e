import Verif.JsonDict.Model
import Verif.Htbl.Props

/-!
# Properties of JSON dictionaries (C29)
-/

namespace Verif.JsonDict

open Verif.Htbl

/-- Histories of `json_attr_add` and `json_attr_rem` using names of a set `P`, with the map from names to
attributes they should produce.  A new attribute's address is not one in use. -/
inductive Reach (P : Name → Prop) : Dict → List (Name × Nat) → Prop where
  | new : Reach P new []
  | add {d m name id} : Reach P d m → P name → (∀ p ∈ m, p.2 ≠ id) →
      Reach P (attrAdd d name id) (alSet m name id)
  | rem {d m name} : Reach P d m → P name → Reach P (attrRem d name).1 (alDel m name)

/-- no name of the set is a proper prefix of another -/
def PrefixFree (P : Name → Prop) : Prop := ∀ a b, P a → P b → a <+: b → a = b

theorem strncmpEq_prefix : ∀ (a b : Name), strncmpEq a b b.length = true ↔ b <+: a := by
  intro a
  induction a with
  | nil =>
    intro b
    cases b with
    | nil => simp [strncmpEq]
    | cons c b => simp [strncmpEq]
  | cons c a ih =>
    intro b
    cases b with
    | nil => simp [strncmpEq]
    | cons d b =>
      rw [List.length_cons]
      unfold strncmpEq
      rw [List.cons_prefix_cons, Bool.and_eq_true, ih]
      simp only [decide_eq_true_eq]
      constructor
      · rintro ⟨h1, h2⟩; exact ⟨h1.symm, h2⟩
      · rintro ⟨h1, h2⟩; exact ⟨h1.symm, h2⟩

def entOf (p : Name × Nat) : Ent Name := ⟨p.2, p.1⟩

structure Ok (P : Name → Prop) (d : Dict) (m : List (Name × Nat)) : Prop where
  tbl : ∃ live, Htbl.Reach fnv d live ∧ live.Perm (m.map entOf)
  keys : (m.map Prod.fst).Nodup
  names : ∀ p ∈ m, P p.1

/-- under a prefix-free set of names the dictionary finds what the map holds -/
theorem ok_find {P : Name → Prop} (hP : PrefixFree P) {d : Dict} {m : List (Name × Nat)} (h : Ok P d m)
    {name : Name} (hn : P name) : attrFind d name = (alGet m name).map (fun id => ⟨id, name⟩) := by
  obtain ⟨live, hr, hp⟩ := h.tbl
  unfold attrFind
  rw [find_bucket hr]
  have hpred : ∀ e ∈ live, (attrCmp e.key name && decide (fnv e.key % d.depth = fnv name % d.depth)) =
      decide (e.key = name) := by
    intro e he
    have hm := hp.mem_iff.1 he
    obtain ⟨p, hpm, rfl⟩ := List.mem_map.1 hm
    have hPp := h.names p hpm
    by_cases hk : p.1 = name
    · have : attrCmp (entOf p).key name = true := by
        unfold attrCmp; rw [strncmpEq_prefix]; simp [entOf, hk]
      rw [this]; simp [entOf, hk]
    · have : attrCmp (entOf p).key name = false := by
        cases hb : attrCmp (entOf p).key name with
        | false => rfl
        | true =>
          unfold attrCmp at hb; rw [strncmpEq_prefix] at hb
          exact absurd (hP _ _ hn hPp hb).symm hk
      rw [this]
      simp [entOf, hk]
  cases hg : alGet m name with
  | none =>
    rw [Option.map_none, List.find?_eq_none]
    intro e he
    rw [hpred e he]
    obtain ⟨p, hpm, rfl⟩ := List.mem_map.1 (hp.mem_iff.1 he)
    have := alGet_none_iff.1 hg p hpm
    simp [entOf, this]
  | some id =>
    rw [Option.map_some]
    have hmem := alGet_mem hg
    have hin : (⟨id, name⟩ : Ent Name) ∈ live := hp.mem_iff.2 (List.mem_map.2 ⟨(name, id), hmem, rfl⟩)
    cases hf : live.find? (fun e => attrCmp e.key name && decide (fnv e.key % d.depth = fnv name % d.depth)) with
    | none =>
      rw [List.find?_eq_none] at hf
      have := hf _ hin
      rw [hpred _ hin] at this
      simp at this
    | some e =>
      have h1 := List.find?_some hf
      have h2 := List.mem_of_find?_eq_some hf
      rw [hpred e h2] at h1
      simp only [decide_eq_true_eq] at h1
      obtain ⟨p, hpm, rfl⟩ := List.mem_map.1 (hp.mem_iff.1 h2)
      have h3 : p.1 = name := h1
      have h4 := (mem_iff_alGet h.keys (k := p.1) (v := p.2)).1 hpm
      rw [h3, hg] at h4
      cases h4
      simp [entOf, h3]

theorem map_alDel {m : List (Name × Nat)} (hk : (m.map Prod.fst).Nodup) {name : Name} {id : Nat}
    (hg : alGet m name = some id) : ((alDel m name).map entOf) = (m.map entOf).erase ⟨id, name⟩ := by
  have hinj : ∀ p q, entOf p = entOf q → p = q := by
    intro p q h; simp [entOf] at h; exact Prod.ext h.2 h.1
  have hnd : (m.map entOf).Nodup := by
    rw [List.nodup_iff_pairwise_ne, List.pairwise_map]
    exact (List.nodup_iff_pairwise_ne.1 (keys_nodup_nodup hk)).imp (fun hab he => hab (hinj _ _ he))
  rw [hnd.erase_eq_filter, List.filter_map]
  unfold alDel
  congr 1
  apply List.filter_congr
  intro p hp
  simp only [Function.comp]
  by_cases h : p.1 = name
  · have h4 := (mem_iff_alGet hk (k := p.1) (v := p.2)).1 hp
    rw [h, hg] at h4
    cases h4
    simp [entOf, h]
  · have : entOf p ≠ ⟨id, name⟩ := by
      intro he; simp [entOf] at he; exact h he.2
    simp [h, this]

theorem ok_del {P : Name → Prop} {d : Dict} {m : List (Name × Nat)} (h : Ok P d m) {name : Name} {id : Nat}
    (hg : alGet m name = some id) : Ok P (del fnv d ⟨id, name⟩) (alDel m name) := by
  obtain ⟨live, hr, hp⟩ := h.tbl
  have hin : (⟨id, name⟩ : Ent Name) ∈ live :=
    hp.mem_iff.2 (List.mem_map.2 ⟨(name, id), alGet_mem hg, rfl⟩)
  refine ⟨⟨_, .del hr hin, ?_⟩, alDel_keys_nodup h.keys name, ?_⟩
  · rw [map_alDel h.keys hg]; exact hp.erase _
  · intro p hp; exact h.names p (List.mem_filter.1 hp).1

theorem alDel_absent {m : List (Name × Nat)} {name : Name} (hg : alGet m name = none) : alDel m name = m := by
  apply List.filter_eq_self.2
  intro p hp
  simpa using alGet_none_iff.1 hg p hp

theorem ok_ins {P : Name → Prop} {d : Dict} {m : List (Name × Nat)} (h : Ok P d m) {name : Name} {id : Nat}
    (hn : P name) (hg : alGet m name = none) (hid : ∀ p ∈ m, p.2 ≠ id) :
    Ok P (ins fnv d ⟨id, name⟩) ((name, id) :: m) := by
  obtain ⟨live, hr, hp⟩ := h.tbl
  have hnin : (⟨id, name⟩ : Ent Name) ∉ live := by
    intro hc
    obtain ⟨p, hpm, he⟩ := List.mem_map.1 (hp.mem_iff.1 hc)
    simp [entOf] at he
    exact hid p hpm he.1
  refine ⟨⟨_, .ins hr hnin, ?_⟩, ?_, ?_⟩
  · rw [List.map_cons]; exact hp.cons _
  · rw [List.map_cons, List.nodup_cons]
    refine ⟨?_, h.keys⟩
    intro hc
    obtain ⟨p, hpm, he⟩ := List.mem_map.1 hc
    exact alGet_none_iff.1 hg p hpm he
  · intro p hpm
    rcases List.mem_cons.1 hpm with rfl | hpm
    · exact hn
    · exact h.names p hpm

theorem reach_ok {P : Name → Prop} (hP : PrefixFree P) {d : Dict} {m : List (Name × Nat)} (h : Reach P d m) :
    Ok P d m := by
  induction h with
  | new => exact ⟨⟨[], .alloc (by decide), .refl _⟩, List.nodup_nil, fun p hp => by cases hp⟩
  | add _ hn hid ih =>
    rename_i d m name id _
    have hf := ok_find hP ih hn
    unfold attrAdd alSet
    cases hg : alGet m name with
    | none =>
      rw [hg] at hf
      simp only [hf, Option.map_none, alDel_absent hg]
      exact ok_ins ih hn hg hid
    | some old =>
      rw [hg] at hf
      simp only [hf, Option.map_some]
      refine ok_ins (ok_del ih hg) hn (by rw [alGet_del]; simp) ?_
      intro p hp; exact hid p (List.mem_filter.1 hp).1
  | rem _ hn ih =>
    rename_i d m name _
    have hf := ok_find hP ih hn
    unfold attrRem
    cases hg : alGet m name with
    | none =>
      rw [hg] at hf
      simp only [hf, Option.map_none, alDel_absent hg]
      exact ih
    | some old =>
      rw [hg] at hf
      simp only [hf, Option.map_some]
      exact ok_del ih hg

/-- C29: when no name used is a proper prefix of another one used, `json_attr_find` returns the attribute last
added under exactly that name and not removed, and nothing when there is none.  Missing for the full claim:
names that are prefixes of others, for which it is false (`json_prefix_lookup_defect`). -/
theorem json_find_partial {P : Name → Prop} (hP : PrefixFree P) {d : Dict} {m : List (Name × Nat)}
    (h : Reach P d m) {name : Name} (hn : P name) :
    (attrFind d name).map (·.id) = alGet m name ∧ (∀ e, attrFind d name = some e → e.key = name) := by
  rw [ok_find hP (reach_ok hP h) hn]
  cases alGet m name with
  | none => simp
  | some id => simp

/-- C29: under the same condition the attribute count is the number of names, and removal answers `ENOENT`
exactly when the name is absent. -/
theorem json_count_rem_partial {P : Name → Prop} (hP : PrefixFree P) {d : Dict} {m : List (Name × Nat)}
    (h : Reach P d m) : attrCount d = m.length ∧
      ∀ name, P name → ((attrRem d name).2 = .enoent ↔ alGet m name = none) := by
  have hok := reach_ok hP h
  constructor
  · obtain ⟨live, hr, hp⟩ := hok.tbl
    unfold attrCount
    rw [(htbl_count_correct hr).1, hp.length_eq, List.length_map]
  · intro name hn
    have hf := ok_find hP hok hn
    unfold attrRem
    cases hg : alGet m name with
    | none => rw [hg] at hf; simp [hf]
    | some id => rw [hg] at hf; simp [hf]

/-! ### what goes wrong: the comparison stops at the end of the searched name -/

/-- "job" -/
def shortName : Name := [106, 111, 98]
/-- "job_id1" -/
def longName : Name := [106, 111, 98, 95, 105, 100, 49]

/-- Defect: in a dictionary holding only "job_id1", looking up "job" returns that attribute. -/
theorem json_prefix_lookup_defect :
    ∃ d m, Reach (fun _ => True) d m ∧ alGet m shortName = none ∧ attrFind d shortName = some ⟨1, longName⟩ :=
  ⟨_, _, .add (name := longName) (id := 1) .new trivial (by simp), by decide, by decide +kernel⟩

/-- Defect: adding "job" to that dictionary removes (and frees) the attribute "job_id1". -/
theorem json_prefix_add_defect :
    ∃ d m, Reach (fun _ => True) d m ∧ alGet m longName = some 1 ∧ alGet m shortName = some 2 ∧
      attrFind d longName = none :=
  ⟨_, _, .add (name := shortName) (id := 2) (.add (name := longName) (id := 1) .new trivial (by simp)) trivial
    (by decide), by decide, by decide, by decide +kernel⟩


example : PrefixFree (fun n => n = shortName ∨ n = [105, 100]) := by
  rintro a b (rfl | rfl) (rfl | rfl) h
  · rfl
  · exact absurd h (by decide)
  · exact absurd h (by decide)
  · rfl
/-- "id" added, "job" added twice -/
example : ∃ d, Reach (fun n => n = shortName ∨ n = [105, 100]) d [(shortName, 3), ([105, 100], 1)] :=
  ⟨_, .add (name := shortName) (id := 3) (.add (name := shortName) (id := 2)
    (.add (name := [105, 100]) (id := 1) .new (.inr rfl) (by simp)) (.inl rfl) (by decide)) (.inl rfl)
    (by decide)⟩

end Verif.JsonDict
