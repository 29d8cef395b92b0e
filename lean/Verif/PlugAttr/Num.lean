import Verif.PlugAttr.NumModel
import Verif.PlugAttr.Props

/-!
# C88: numbers among the options; histories of additions
-/

namespace Verif.PlugAttr

open Verif.Av (Str Ent)

/-- the option of the instance, as a number -/
def Denotes (num : Str → Option Int) (exp : Str → Str) (pa : PA) (attr : Str) (key : Option Str) (v : Int) : Prop :=
  ∃ t, (((places pa key).flatMap fun p => given exp p.avl attr).head?).join = some t ∧ num t = some v

/-- *Numbers.*  A conversion to a signed type or to 32 bits succeeds exactly if the option is a number that fits, and then
stores that number; otherwise nothing is stored. -/
theorem num_exact {num : Str → Option Int} {exp : Str → Str} {pa : PA} (h : Wf pa) (attr : Str) (key : Option Str) (v : Int) :
    (s32 num exp pa attr key = (0, some v) ↔ Denotes num exp pa attr key v ∧ -2^31 ≤ v ∧ v < 2^31) ∧
    (u32 num exp pa attr key = (0, some v) ↔ Denotes num exp pa attr key v ∧ 0 ≤ v ∧ v < 2^32) ∧
    (s64 num exp pa attr key = (0, some v) ↔ Denotes num exp pa attr key v ∧ -2^63 ≤ v ∧ v < 2^63) ∧
    ((s32 num exp pa attr key).1 ≠ 0 → (s32 num exp pa attr key).2 = none) ∧
    ((u32 num exp pa attr key).1 ≠ 0 → (u32 num exp pa attr key).2 = none) ∧
    ((s64 num exp pa attr key).1 ≠ 0 → (s64 num exp pa attr key).2 = none) ∧
    ((u64 num exp pa attr key).1 ≠ 0 → (u64 num exp pa attr key).2 = none) := by
  have hv := value_first (exp := exp) h attr key
  unfold Denotes
  rw [← hv]
  unfold s32 u32 s64 u64
  cases value exp pa attr key with
  | none => simp
  | some t =>
    simp only [Option.some.injEq, exists_eq_left']
    cases num t with
    | none => simp
    | some j =>
      simp only [Option.bind_some, Option.some.injEq, strtoll, strtoull]
      refine ⟨?_, ?_, ?_, ?_, ?_, ?_, ?_⟩
      · split
        · rename_i hj
          split at hj
          · simp; omega
          · cases hj
        · rename_i j' hj
          split at hj
          · cases hj
          · cases hj
            split
            · simp; omega
            · simp; omega
      · split
        · rename_i hj
          split at hj
          · simp; omega
          · cases hj
        · rename_i j' hj
          split at hj
          · cases hj
          · cases hj
            split
            · simp; omega
            · simp; omega
      · split
        · rename_i hj
          split at hj
          · simp; omega
          · cases hj
        · rename_i j' hj
          split at hj
          · cases hj
          · cases hj
            simp; omega
      · split
        · simp
        · split <;> simp
      · split
        · simp
        · split <;> simp
      · split <;> simp
      · split <;> simp

/-- unsigned numbers of 64 bits are stored as they are if the option is not negative -/
theorem u64_partial {num : Str → Option Int} {exp : Str → Str} {pa : PA} (h : Wf pa) (attr : Str) (key : Option Str) (v : Int)
    (hd : Denotes num exp pa attr key v) (h0 : 0 ≤ v) :
    (v < 2^64 → u64 num exp pa attr key = (0, some v)) ∧ (2^64 ≤ v → (u64 num exp pa attr key).1 ≠ 0) := by
  obtain ⟨t, h1, h2⟩ := hd
  rw [← value_first (exp := exp) h attr key] at h1
  unfold u64
  rw [h1]
  simp only [h2, Option.bind_some, strtoull]
  refine ⟨fun hv => ?_, fun hv => ?_⟩
  · rw [if_neg (by omega), if_neg (by omega)]
  · rw [if_pos (by omega)]
    simp

/-- *Defect.*  A negative number is accepted as an unsigned one of 64 bits and stored as another number. -/
theorem u64_negative_defect {num : Str → Option Int} {exp : Str → Str} {pa : PA} (h : Wf pa) (attr : Str) (key : Option Str) (v : Int)
    (hd : Denotes num exp pa attr key v) (h0 : v < 0) (h1 : -2^63 ≤ v) :
    u64 num exp pa attr key = (0, some (2^64 + v)) := by
  obtain ⟨t, h2, h3⟩ := hd
  rw [← value_first (exp := exp) h attr key] at h2
  unfold u64
  rw [h2]
  simp only [h3, Option.bind_some, strtoull]
  rw [if_neg (by omega), if_pos h0]
  rfl

/-- *Defect.*  A number that fits in no type is reported as no number (`ENOTSUP`) and not as out of range. -/
theorem range_code_defect {num : Str → Option Int} {exp : Str → Str} {pa : PA} (h : Wf pa) (attr : Str) (key : Option Str) (v : Int)
    (hd : Denotes num exp pa attr key v) (h0 : 2^63 ≤ v) : s32 num exp pa attr key = (95, none) := by
  obtain ⟨t, h2, h3⟩ := hd
  rw [← value_first (exp := exp) h attr key] at h2
  unfold s32
  rw [h2]
  simp only [h3, Option.bind_some, strtoll]
  rw [if_pos (by omega)]

example : ∃ pa : PA, Wf pa ∧ Denotes (fun _ => some 5) id pa "n".toList none 5 :=
  ⟨⟨⟨[⟨"n".toList, some "5".toList⟩], []⟩, "p".toList, []⟩, ⟨by simp [Valued], by simp, by simp⟩, "5".toList, by decide, rfl⟩

/-! ## histories of additions -/

/-- additions one after the other, the newest first -/
def addAll (exp : Str → Str) (r : Rules) (pa : PA) : List Pair → Option PA
  | [] => some pa
  | p :: ps => (addAll exp r pa ps).bind fun q => (add exp q p r).map (·.1)

/-- *Entries stay.*  Whatever is added later, the entries that are there stay as they are, the options of the command too, and
every new entry is one that was added with its key and not refused. -/
theorem entries_stay {exp : Str → Str} {r : Rules} {pa : PA} (hw : Wf pa) (hk : r.keys ≠ []) (hd : Alternatives r.deps) :
    ∀ ps : List Pair, (∀ p ∈ ps, Valued p.avl ∧ ¬ KeyOf exp p.avl r.keys []) →
    ∃ pa', addAll exp r pa ps = some pa' ∧ Wf pa' ∧ pa'.over = pa.over ∧ pa'.name = pa.name ∧
      (∀ k p, entry pa k = some p → entry pa' k = some p) ∧
      (∀ k p, entry pa' k = some p → entry pa k = some p ∨ (p ∈ ps ∧ KeyOf exp p.avl r.keys k ∧ ¬ Refused exp p r)) ∧
      (∀ p ∈ ps, ¬ Refused exp p r → ∀ k, KeyOf exp p.avl r.keys k → entry pa' k ≠ none)
  | [], _ => ⟨pa, rfl, hw, rfl, rfl, fun _ _ h => h, fun _ _ h => .inl h, (fun _ h => nomatch h)⟩
  | p :: ps, h => by
    obtain ⟨q, h1, h2, h3, h4, h5, h6, h7⟩ := entries_stay hw hk hd ps fun x hx => h x (List.mem_cons_of_mem _ hx)
    have hp := h p (List.mem_cons_self ..)
    obtain ⟨q', rc, a1, a2, a3, a4, a5, a6, a7, a8⟩ := add_partial h2 hp.1 hk hd hp.2
    refine ⟨q', by rw [addAll, h1]; simp [a1], a2, a3.trans h3, a4.trans h4, ?_, ?_, ?_⟩
    · intro k x hx
      have := h5 k x hx
      by_cases hr : rc = 0
      · obtain ⟨_, k', hk', hn⟩ := a5.1 hr
        rw [a7 hr k' hk', if_neg]
        · exact this
        · rintro rfl
          rw [hn] at this
          cases this
      · rw [a8 hr]; exact this
    · intro k x hx
      have old : entry q k = some x → entry pa k = some x ∨ (x ∈ p :: ps ∧ KeyOf exp x.avl r.keys k ∧ ¬ Refused exp x r) := by
        intro hh
        rcases h6 k x hh with hh | ⟨m, hh⟩
        · exact .inl hh
        · exact .inr ⟨List.mem_cons_of_mem _ m, hh⟩
      by_cases hr : rc = 0
      · obtain ⟨hnr, k', hk', hn⟩ := a5.1 hr
        rw [a7 hr k' hk'] at hx
        split at hx
        · rename_i he
          cases hx
          exact .inr ⟨List.mem_cons_self .., he ▸ hk', hnr⟩
        · exact old hx
      · rw [a8 hr] at hx
        exact old hx
    · intro x hx hnr k hkx
      have keep : entry q k ≠ none → entry q' k ≠ none := by
        intro hh
        by_cases hr : rc = 0
        · obtain ⟨_, k', hk', hn⟩ := a5.1 hr
          rw [a7 hr k' hk']
          split
          · simp
          · exact hh
        · rw [a8 hr]; exact hh
      rcases List.mem_cons.1 hx with rfl | hx
      · by_cases he : entry q k = none
        · have hr := a5.2 ⟨hnr, k, hkx, he⟩
          rw [a7 hr k hkx, if_pos rfl]
          simp
        · exact keep he
      · exact keep (h7 x hx hnr k hkx)

end Verif.PlugAttr
