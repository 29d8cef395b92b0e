import Verif.NameTab.Model
import Verif.NameTab.Spec

/-!
# Properties of the name tables (C44)
-/

namespace Verif.NameTab

/-! ## the order of strings -/

theorem strcmp_eq : ∀ a b, strcmp a b = .eq ↔ a = b := by
  intro a
  induction a with
  | nil => intro b; cases b <;> simp [strcmp]
  | cons x a ih =>
    intro b
    cases b with
    | nil => simp [strcmp]
    | cons y b =>
      rw [strcmp]
      split
      · rename_i h; simp; intro e; omega
      · split
        · rename_i h; simp; intro e; omega
        · rw [ih]; simp; omega

theorem strcmp_swap : ∀ a b, strcmp a b = .gt ↔ strcmp b a = .lt := by
  intro a
  induction a with
  | nil => intro b; cases b <;> simp [strcmp]
  | cons x a ih =>
    intro b
    cases b with
    | nil => simp [strcmp]
    | cons y b =>
      simp only [strcmp]
      by_cases h1 : x < y
      · have : ¬ y < x := by omega
        simp [h1, this]
      · by_cases h2 : y < x
        · simp [h1, h2]
        · simp [h1, h2, ih]

theorem strcmp_trans : ∀ a b c, strcmp a b = .lt → strcmp b c = .lt → strcmp a c = .lt := by
  intro a
  induction a with
  | nil =>
    intro b c h1 h2
    cases c with
    | nil => cases b <;> simp [strcmp] at *
    | cons z c => rfl
  | cons x a ih =>
    intro b c h1 h2
    cases b with
    | nil => simp [strcmp] at h1
    | cons y b =>
      cases c with
      | nil => simp [strcmp] at h2
      | cons z c =>
        simp only [strcmp] at h1 h2 ⊢
        by_cases e1 : x < y
        · by_cases e2 : y < z
          · rw [if_pos (by omega)]
          · rw [if_neg e2] at h2
            by_cases e3 : z < y
            · rw [if_pos e3] at h2; cases h2
            · rw [if_pos (by omega)]
        · rw [if_neg e1] at h1
          by_cases e3 : y < x
          · rw [if_pos e3] at h1; cases h1
          · rw [if_neg e3] at h1
            by_cases e2 : y < z
            · rw [if_pos (by omega)]
            · rw [if_neg e2] at h2
              by_cases e4 : z < y
              · rw [if_pos e4] at h2; cases h2
              · rw [if_neg e4] at h2
                rw [if_neg (by omega), if_neg (by omega)]
                exact ih b c h1 h2

/-! ## binary search -/

/-- the elements left out so far do not match -/
theorem bsearchLoop_spec (cmp : Nat → Ordering) (n : Nat)
    (hlt : ∀ i j, i < j → j < n → cmp i = .lt → cmp j = .lt)
    (hgt : ∀ i j, i < j → j < n → cmp j = .gt → cmp i = .gt) : ∀ f lo hi, hi ≤ n → hi < f + lo →
    (∀ i, i < lo → cmp i = .gt) → (∀ i, hi ≤ i → i < n → cmp i = .lt) →
    match bsearchLoop cmp f lo hi with
    | some i => i < n ∧ cmp i = .eq
    | none => ∀ i, i < n → cmp i ≠ .eq := by
  intro f
  induction f with
  | zero =>
    intro lo hi _ h1 h2 h3
    rw [bsearchLoop]
    intro i hi'
    by_cases h : i < lo
    · rw [h2 i h]; simp
    · rw [h3 i (by omega) hi']; simp
  | succ f ih =>
    intro lo hi hn h1 h2 h3
    rw [bsearchLoop]
    by_cases hc : lo < hi
    · rw [if_pos hc]
      dsimp only
      have hidx : (lo + hi) / 2 < hi := by omega
      have hlo : lo ≤ (lo + hi) / 2 := by omega
      generalize (lo + hi) / 2 = m at *
      cases hm : cmp m with
      | lt =>
        simp only
        apply ih lo m (by omega) (by omega) h2
        intro i hi1 hi2
        by_cases e : i = m
        · rw [e]; exact hm
        · exact hlt m i (by omega) hi2 hm
      | gt =>
        simp only
        apply ih (m + 1) hi hn (by omega) _ h3
        intro i hi1
        by_cases e : i = m
        · rw [e]; exact hm
        · exact hgt i m (by omega) (by omega) hm
      | eq => simp only; exact ⟨by omega, hm⟩
    · rw [if_neg hc]
      intro i hi'
      by_cases h : i < lo
      · rw [h2 i h]; simp
      · rw [h3 i (by omega) hi']; simp

/-- the table is in strictly increasing order -/
def Sorted (cmp : List Nat → List Nat → Ordering) (tab : List (String × Nat)) : Prop :=
  tab.Pairwise (fun a b => cmp (codes a.1) (codes b.1) = .lt)

instance (cmp tab) : Decidable (Sorted cmp tab) := by
  unfold Sorted; infer_instance

/-- a search in a sorted table finds exactly the entry whose name compares equal -/
theorem lookup_spec (norm : List Nat → List Nat) (tab : List (String × Nat))
    (hs : Sorted (fun a b => strcmp (norm a) (norm b)) tab) (key : List Nat) (id : Nat) :
    lookup (fun a b => strcmp (norm a) (norm b)) tab key = some id ↔
      ∃ name, (name, id) ∈ tab ∧ norm (codes name) = norm key := by
  have hpw := List.pairwise_iff_getElem.1 hs
  let cmp : Nat → Ordering := fun i => strcmp (norm key) (norm (codes (tab[i]?.getD ("", 0)).1))
  have hget : ∀ i (h : i < tab.length), tab[i]?.getD ("", 0) = tab[i] := by
    intro i h; rw [List.getElem?_eq_getElem h]; rfl
  have hlt : ∀ i j, i < j → j < tab.length → cmp i = .lt → cmp j = .lt := by
    intro i j hij hj h
    have := hpw i j (by omega) hj hij
    simp only [cmp, hget i (by omega), hget j hj] at h ⊢
    exact strcmp_trans _ _ _ h this
  have hgt : ∀ i j, i < j → j < tab.length → cmp j = .gt → cmp i = .gt := by
    intro i j hij hj h
    have := hpw i j (by omega) hj hij
    simp only [cmp, hget i (by omega), hget j hj] at h ⊢
    rw [strcmp_swap] at h ⊢
    exact strcmp_trans _ _ _ this h
  have hb := bsearchLoop_spec cmp tab.length hlt hgt (tab.length + 1) 0 tab.length
    (Nat.le_refl _) (by omega) (fun i h => by omega) (fun i h1 h2 => by omega)
  rw [lookup]
  show (match bsearchLoop cmp (tab.length + 1) 0 tab.length with
    | none => none | some i => (tab[i]?).map Prod.snd) = some id ↔ _
  cases hl : bsearchLoop cmp (tab.length + 1) 0 tab.length with
  | none =>
    rw [hl] at hb
    simp only at hb ⊢
    constructor
    · intro h; cases h
    · rintro ⟨name, hm, he⟩
      obtain ⟨i, hi, hx⟩ := List.getElem_of_mem hm
      exfalso
      apply hb i hi
      simp only [cmp, hget i hi, hx]
      rw [strcmp_eq]; exact he.symm
  | some i =>
    rw [hl] at hb
    obtain ⟨hi, he⟩ := hb
    simp only [List.getElem?_eq_getElem hi, Option.map_some, Option.some.injEq]
    simp only [cmp, hget i hi] at he
    rw [strcmp_eq] at he
    constructor
    · intro h
      refine ⟨tab[i].1, ?_, he.symm⟩
      rw [← h]; exact List.getElem_mem hi
    · rintro ⟨name, hm, hn⟩
      obtain ⟨j, hj, hx⟩ := List.getElem_of_mem hm
      have hij : i = j := by
        rcases Nat.lt_trichotomy i j with h | h | h
        · have := hpw i j hi hj h
          simp only [hx, ← he, hn] at this
          rw [(strcmp_eq _ _).2 rfl] at this; cases this
        · exact h
        · have := hpw j i hj hi h
          simp only [hx, ← he, hn] at this
          rw [(strcmp_eq _ _).2 rfl] at this; cases this
      subst hij
      rw [hx]

/-! ## the tables -/

theorem reqTab_sorted : Sorted (fun a b => strcmp (id a) (id b)) reqTab := by decide +kernel

theorem attrTab_sorted : Sorted (fun a b => strcmp (id a) (id b)) attrTab := by decide +kernel

theorem typeTab_sorted :
    Sorted (fun a b => strcmp (a.map lower) (b.map lower)) typeTab := by decide +kernel

/-- **C44, commands.**  For every string: a verb is translated to a request id exactly if the table
lists it with that id; every other string gives "not supported". -/
theorem verb_recognised (verb : List Nat) (rid : Nat) (hr : rid ≠ notSupported) :
    reqStr2Id verb = rid ↔ ∃ name, (name, rid) ∈ reqTab ∧ codes name = verb := by
  have := lookup_spec id reqTab reqTab_sorted verb rid
  rw [reqStr2Id]
  change lookup strcmp reqTab verb = some rid ↔ _ at this
  simp only [id_eq] at this
  rw [← this]
  cases lookup strcmp reqTab verb with
  | none => simp; exact fun h => hr h.symm
  | some i => simp

/-- **C44, attributes.**  For every string: an attribute name is translated to an id exactly if the
table lists it with that id, and refused otherwise. -/
theorem attr_recognised (name : List Nat) (aid : Nat) :
    attrStr2Id name = some aid ↔ ∃ n, (n, aid) ∈ attrTab ∧ codes n = name := by
  have := lookup_spec id attrTab attrTab_sorted name aid
  simp only [id_eq] at this
  exact this

/-- **C44, metric types.**  For every string, in any mixture of upper and lower case: a type name is
translated to a type exactly if the table lists it, and to `LDMS_V_NONE` otherwise. -/
theorem type_recognised (name : List Nat) (t : Nat) (ht : t ≠ 0) :
    strToType name = t ↔ ∃ n, (n, t) ∈ typeTab ∧ (codes n).map lower = name.map lower := by
  have := lookup_spec (List.map lower) typeTab typeTab_sorted name t
  rw [strToType, ← this]
  show (lookup strcasecmp typeTab name).getD 0 = t ↔ lookup strcasecmp typeTab name = some t
  cases lookup strcasecmp typeTab name with
  | none => simp; exact fun h => ht h.symm
  | some i => simp

/-- **C44, type names.**  For every type except the record instance (and the internal list-entry
type) the printed name is translated back to the type; every value beyond the last type is printed
as "none". -/
theorem type_round_trip_partial (t : Nat) (h1 : t ≠ 26) (h2 : t ≠ 24) :
    ∃ s, typeToStr t = some s ∧ strToType (codes s) = if t > typeLast then 0 else t := by
  by_cases h : t > typeLast
  · refine ⟨"none", by simp [typeToStr, h]; decide, ?_⟩
    rw [if_pos h]; decide +kernel
  · have ht : t ≤ 28 := by simpa [typeLast] using h
    have : ∀ t : Fin 29, t.1 ≠ 26 → t.1 ≠ 24 → ∃ s, typeToStr t.1 = some s ∧
        strToType (codes s) = t.1 := by
      intro t h1 h2
      refine ⟨(typeToStr t.1).getD "", ?_, ?_⟩
      · revert t; decide +kernel
      · revert t; decide +kernel
    rw [if_neg h]
    exact this ⟨t, by omega⟩ h1 h2

/-- **C44, defect.**  The name printed for a record instance, "record_inst", is not a type name the
library understands: it is translated back to `LDMS_V_NONE`. -/
theorem record_inst_name_defect :
    typeToStr 26 = some "record_inst" ∧ strToType (codes "record_inst") = 0 := by
  constructor
  · decide
  · decide +kernel

/-- **C44, defect.**  Asking for the scalar type of a list, list entry, record type, record
instance, record array or timestamp reads past the end of the table. -/
theorem scalar_type_overrun_defect (t : Nat) :
    typeToScalar t = none ↔ 23 ≤ t ∧ t ≤ 28 := by
  rw [typeToScalar, List.getElem?_eq_none_iff]
  have : typeScalars.length = 23 := by decide
  rw [this]
  have hl : typeLast = 28 := rfl
  by_cases h : t > typeLast
  · rw [if_pos h]; omega
  · rw [if_neg h]; omega

/-- **C44.**  For the scalar and array types the scalar type is right: the type itself, or the
element type. -/
theorem scalar_type_partial (t : Nat) (h : t ≤ 22) :
    typeToScalar t = some (if t ≤ 11 then t else t - 11) := by
  have : ∀ t : Fin 23, typeToScalar t.1 = some (if t.1 ≤ 11 then t.1 else t.1 - 11) := by
    decide +kernel
  exact this ⟨t, by omega⟩

/-- **C44, commands mean what they say.**  Whatever the string: if it is recognised as a command, the request
id is the value of the enumeration constant the command is named after (or, for the commands in
`verbAlias`, the constant listed there). -/
theorem verb_meaning (verb : List Nat) (h : reqStr2Id verb ≠ notSupported) :
    ∃ name, codes name = verb ∧ Means reqEnum verbAlias name (reqStr2Id verb) := by
  obtain ⟨name, h1, h2⟩ := (verb_recognised verb _ h).1 rfl
  have hall : ∀ p ∈ reqTab, Means reqEnum verbAlias p.1 p.2 := by decide +kernel
  exact ⟨name, h2, hall _ h1⟩

/-- **C44, attribute names mean what they say**, likewise. -/
theorem attr_meaning (name : List Nat) (aid : Nat) (h : attrStr2Id name = some aid) :
    ∃ n, codes n = name ∧ Means attrEnum attrAlias n aid := by
  obtain ⟨n, h1, h2⟩ := (attr_recognised name aid).1 h
  have hall : ∀ p ∈ attrTab, Means attrEnum attrAlias p.1 p.2 := by decide +kernel
  exact ⟨n, h2, hall _ h1⟩

/-- **C44, defect.**  The request to modify a set group exists, but no command is recognised for it. -/
theorem setgroup_mod_unreachable_defect (verb : List Nat) :
    ("setgroup_mod", 2049) ∈ reqEnum ∧ reqStr2Id verb ≠ 2049 := by
  refine ⟨by decide +kernel, fun h => ?_⟩
  obtain ⟨name, h1, _⟩ := (verb_recognised verb 2049 (by decide)).1 h
  have : ∀ p ∈ reqTab, p.2 ≠ 2049 := by decide +kernel
  exact this _ h1 rfl

example : strToType (codes "U64_Array") = 19 := by decide +kernel
example : reqStr2Id (codes "prdcr_add") = 0x100 := by decide +kernel
example : attrStr2Id (codes "nome") = none := by decide +kernel

end Verif.NameTab
