import Verif.PlugAttr.Spec

/-!
# C88: options of plugins
-/

namespace Verif.PlugAttr

open Verif.Av (Str Ent avIdxOf)

theorem avValue_given {exp : Str → Str} {attr : Str} : ∀ l : List Ent, avValue exp l attr = ((given exp l attr).head?).join
  | [] => rfl
  | e :: es => by
    unfold avValue
    by_cases h : e.name = attr
    · rw [if_neg (by simp [h])]
      simp [given, h]
    · rw [if_pos h, avValue_given es]
      simp [given, h]

theorem idx_absent {l : List Ent} {n : Str} : avIdxOf l n = -1 ↔ ∀ e ∈ l, e.name ≠ n := by
  rw [Verif.Av.idx_of]
  generalize hm : (l.filter fun e => decide (e.name = n)).length = m
  have h0 : m = 0 ↔ ∀ e ∈ l, e.name ≠ n := by
    rw [← hm, List.length_eq_zero_iff, List.filter_eq_nil_iff]
    simp
  match m, h0 with
  | 0, h0 => simpa using h0
  | 1, h0 =>
    simp only
    refine ⟨fun h => absurd h (by generalize hz : List.findIdx _ l = z; have := Int.natCast_nonneg z; simp), fun h => absurd (h0.2 h) (by simp)⟩
  | m + 2, h0 =>
    simp only
    refine ⟨fun h => absurd h (by have := Int.natCast_nonneg m; simp; omega), fun h => absurd (h0.2 h) (by simp)⟩

theorem find_entry {pa : PA} (h : ∀ x ∈ pa.idx, x.1 ≠ []) (k : Str) : find pa.idx k = entry pa k := by
  unfold entry
  generalize pa.idx = l at h
  induction l with
  | nil => rfl
  | cons x l ih =>
    obtain ⟨a, p⟩ := x
    have ih := ih fun x hx => h x (List.mem_cons_of_mem _ hx)
    unfold find
    by_cases hk : a = k
    · subst hk
      have := h (a, p) (List.mem_cons_self ..)
      simp only [ne_eq] at this
      rw [if_pos ⟨this, rfl⟩]
      simp
    · rw [if_neg (by simp [hk]), ih]
      simp [hk]

theorem given_nil {exp : Str → Str} {l : List Ent} {attr : Str} (hv : Valued l) : ((given exp l attr).head?).join = none ↔ given exp l attr = [] := by
  cases hg : given exp l attr with
  | nil => simp
  | cons a b =>
    have : a ∈ given exp l attr := by simp [hg]
    obtain ⟨e, he, rfl⟩ := List.mem_map.1 this
    have := hv e (List.mem_filter.1 he).1
    cases hx : e.value with
    | none => exact absurd hx this
    | some v => simp

/-- *The value of an option* is the first one given in the first place that gives one: the line of the
instance, the command, the line of the plugin. -/
theorem value_first {exp : Str → Str} {pa : PA} (h : Wf pa) (attr : Str) (key : Option Str) :
    value exp pa attr key = (((places pa key).flatMap fun p => given exp p.avl attr).head?).join := by
  have hk : ∀ x ∈ pa.idx, x.1 ≠ [] := fun x hx => (h.2.1 x hx).2
  have he : ∀ k p, entry pa k = some p → Valued p.avl := by
    intro k p hp
    unfold entry at hp
    have := List.mem_of_mem_head? (Option.mem_def.2 hp)
    obtain ⟨x, hx, rfl⟩ := List.mem_map.1 this
    exact (h.2.1 x (List.mem_filter.1 hx).1).1
  have step : ∀ (p : Pair) (rest : List (Option Str)), Valued p.avl →
      ((given exp p.avl attr ++ rest).head?).join = match avValue exp p.avl attr with | some v => some v | none => rest.head?.join := by
    intro p rest hv
    rw [avValue_given]
    cases hg : given exp p.avl attr with
    | nil => simp
    | cons a b =>
      have : ¬ ((given exp p.avl attr).head?).join = none := fun hh => by
        have := (given_nil (exp := exp) (attr := attr) hv).1 hh
        simp [hg] at this
      rw [hg] at this
      cases a with
      | none => simp at this
      | some v => simp
  have tail : ((([pa.over] ++ (entry pa pa.name).toList).flatMap fun p => given exp p.avl attr).head?).join =
      match avValue exp pa.over.avl attr with
      | some v => some v
      | none => match find pa.idx pa.name with
        | none => none
        | some lp => avValue exp lp.avl attr := by
    rw [List.flatMap_append, List.flatMap_singleton, step _ _ h.1, find_entry hk]
    cases avValue exp pa.over.avl attr with
    | some v => rfl
    | none =>
      cases entry pa pa.name with
      | none => rfl
      | some p => simp [avValue_given]
  unfold value places
  rw [List.append_assoc, List.flatMap_append]
  cases key with
  | none => simp only [Option.bind_none, Option.toList_none, List.flatMap_nil, List.nil_append]; exact tail.symm
  | some k =>
    simp only [Option.bind_some, find_entry hk k]
    cases hp : entry pa k with
    | none => simp only [Option.toList_none, List.flatMap_nil, List.nil_append]; exact tail.symm
    | some p =>
      simp only [Option.toList_some, List.flatMap_singleton]
      rw [step _ _ (he k p hp)]
      cases avValue exp p.avl attr with
      | some v => rfl
      | none => simp only; exact tail.symm

/-- a keyword is set if one of the places has it -/
theorem kw_any {pa : PA} (h : Wf pa) (k : Str) (key : Option Str) :
    kw pa k key = true ↔ ∃ p ∈ places pa key, ∃ e ∈ p.kvl, e.name = k := by
  have hk : ∀ x ∈ pa.idx, x.1 ≠ [] := fun x hx => (h.2.1 x hx).2
  have hb : key.bind (find pa.idx) = key.bind (entry pa) := by
    cases key with
    | none => rfl
    | some k => exact find_entry hk k
  have he : ∀ l : List Ent, avIdxOf l k ≠ -1 ↔ ∃ e ∈ l, e.name = k := by
    intro l
    rw [ne_eq, idx_absent]
    simp
  have ho : ∀ o : Option Pair, (match o with | none => false | some lp => decide (avIdxOf lp.kvl k ≠ -1)) = true ↔ ∃ p ∈ o.toList, ∃ e ∈ p.kvl, e.name = k := by
    intro o
    cases o with
    | none => simp
    | some p =>
      simp only [decide_eq_true_eq, Option.toList_some, List.mem_singleton, exists_eq_left]
      exact he p.kvl
  unfold kw places
  simp only
  rw [Bool.or_eq_true, Bool.or_eq_true, hb, find_entry hk, decide_eq_true_eq, he]
  have h1 := ho (key.bind (entry pa))
  have h2 := ho (entry pa pa.name)
  constructor
  · rintro ((h | h) | h)
    · obtain ⟨p, hp, h⟩ := h1.1 h
      exact ⟨p, by simp [hp], h⟩
    · exact ⟨pa.over, by simp, h⟩
    · obtain ⟨p, hp, h⟩ := h2.1 h
      exact ⟨p, by simp [hp], h⟩
  · rintro ⟨p, hp, h⟩
    rw [List.mem_append, List.mem_append, List.mem_singleton] at hp
    rcases hp with (hp | rfl) | hp
    · exact .inl (.inl (h1.2 ⟨p, hp, h⟩))
    · exact .inl (.inr h)
    · exact .inr (h2.2 ⟨p, hp, h⟩)

/-- *Booleans.*  The first character of the value decides; the empty value is true. -/
theorem bool_spec (exp : Str → Str) (pa : PA) (attr : Str) (key : Option Str) :
    (bool exp pa attr key).1 = (match value exp pa attr key with
      | none => -2
      | some v => if v = [] ∨ ∃ c ∈ "1tTyY0fFnN".toList, v.head? = some c then 0 else -1) ∧
    (bool exp pa attr key).2 = (match value exp pa attr key with
      | none => none
      | some v => if v = [] ∨ ∃ c ∈ "1tTyY".toList, v.head? = some c then some true
        else if ∃ c ∈ "0fFnN".toList, v.head? = some c then some false else none) := by
  unfold bool
  cases value exp pa attr key with
  | none => exact ⟨rfl, rfl⟩
  | some v =>
    cases v with
    | nil => simp
    | cons c v =>
      by_cases h1 : c = '1' ∨ c = 't' ∨ c = 'T' ∨ c = 'y' ∨ c = 'Y'
      · simp only [if_pos h1]
        rcases h1 with rfl | rfl | rfl | rfl | rfl <;> simp
      · by_cases h2 : c = '0' ∨ c = 'f' ∨ c = 'F' ∨ c = 'n' ∨ c = 'N'
        · simp only [if_neg h1, if_pos h2]
          rcases h2 with rfl | rfl | rfl | rfl | rfl <;> simp
        · simp only [if_neg h1, if_neg h2]
          simp only [not_or] at h1 h2
          simp [h1, h2]

/-- the names in a list of options that come before the last of `attr` are all `attr` -/
def Leading (l : List Ent) (attr : Str) : Prop := ∃ a b, l = a ++ b ∧ (∀ e ∈ a, e.name = attr) ∧ ∀ e ∈ b, e.name ≠ attr

theorem fillLoop_none {exp : Str → Str} {avl : List Ent} {attr : Str} {k : Nat} : ∀ {b : List Ent} {i : Nat}, (∀ e ∈ b, e.name ≠ attr) →
    fillLoop exp avl attr k b i = []
  | [], _, _ => rfl
  | e :: b, i, h => by
    unfold fillLoop
    rw [if_neg (h e (List.mem_cons_self ..)), fillLoop_none fun x hx => h x (List.mem_cons_of_mem _ hx)]
    split <;> rfl

theorem fillLoop_lead {exp : Str → Str} {avl : List Ent} {attr : Str} {k : Nat} {b : List Ent} (hb : ∀ e ∈ b, e.name ≠ attr) :
    ∀ {a : List Ent} {i : Nat}, (∀ e ∈ a, e.name = attr) → avl.drop i = a ++ b → i + a.length ≤ k →
      fillLoop exp avl attr k (a ++ b) i = a.map fun e => e.value.map exp
  | [], _, _, _, _ => fillLoop_none hb
  | e :: a, i, h, hd, hk => by
    simp only [List.length_cons] at hk
    rw [List.cons_append, fillLoop, if_pos (by omega), if_pos (h e (List.mem_cons_self ..))]
    have h0 : avl[i]? = some e := by
      have := congrArg List.head? hd
      simpa [List.head?_drop] using this
    have h1 : avl.drop (i + 1) = a ++ b := by
      have := congrArg (List.drop 1) hd
      simpa [List.drop_drop] using this
    rw [fillLoop_lead hb (fun x hx => h x (List.mem_cons_of_mem _ hx)) h1 (by omega)]
    simp [avAt, h0]

theorem fillLoop_length {exp : Str → Str} {avl : List Ent} {attr : Str} {k : Nat} : ∀ {b : List Ent} {i : Nat},
    i + (b.filter fun e => e.name = attr).length ≤ k → (fillLoop exp avl attr k b i).length = (b.filter fun e => e.name = attr).length
  | [], _, _ => rfl
  | e :: b, i, h => by
    unfold fillLoop
    by_cases he : e.name = attr
    · rw [List.filter_cons_of_pos (by simp [he]), List.length_cons] at h
      rw [if_pos (by omega), if_pos he, List.filter_cons_of_pos (by simp [he]), List.length_cons, List.length_cons,
        fillLoop_length (by omega)]
    · rw [List.filter_cons_of_neg (by simp [he])] at h
      rw [List.filter_cons_of_neg (by simp [he]), if_neg he]
      split
      · exact fillLoop_length h
      · have : (b.filter fun e => decide (e.name = attr)).length = 0 := by omega
        rw [this]; rfl

theorem single_at {exp : Str → Str} {attr : Str} : ∀ {l : List Ent} {z : Nat}, (l.filter fun e => decide (e.name = attr)).length = 1 →
    l.findIdx (fun e => decide (e.name = attr)) = z → [avAt exp l z] = given exp l attr
  | [], _, hm, _ => by simp at hm
  | e :: l, z, hm, hz => by
    by_cases he : e.name = attr
    · have : z = 0 := by rw [← hz]; simp [List.findIdx_cons, he]
      subst this
      rw [List.filter_cons_of_pos (by simp [he]), List.length_cons] at hm
      have : l.filter (fun e => decide (e.name = attr)) = [] := List.length_eq_zero_iff.1 (by omega)
      simp [given, he, this, avAt]
    · rw [List.filter_cons_of_neg (by simp [he])] at hm
      rw [List.findIdx_cons] at hz
      simp only [he, decide_false, cond_false] at hz
      have := single_at (exp := exp) hm rfl
      rw [← hz]
      unfold given at this ⊢
      rw [List.filter_cons_of_neg (by simp [he]), ← this]
      simp [avAt]

/-- the values of an option of a list that has it: always as many as are given, and the right ones if the option is
given once or before all others -/
theorem fillMulti_spec {exp : Str → Str} {l : List Ent} {attr : Str} (h : ∃ e ∈ l, e.name = attr) :
    (fillMulti exp l attr (avIdxOf l attr)).1 = (given exp l attr).length ∧
    (fillMulti exp l attr (avIdxOf l attr)).2.length = (given exp l attr).length ∧
    ((given exp l attr).length = 1 ∨ Leading l attr → (fillMulti exp l attr (avIdxOf l attr)).2 = given exp l attr) := by
  rw [Verif.Av.idx_of]
  have hg : (given exp l attr).length = (l.filter fun e => e.name = attr).length := by simp [given]
  generalize hm : (l.filter fun e => decide (e.name = attr)).length = m at hg
  match m, hm with
  | 0, hm =>
    obtain ⟨e, he, hn⟩ := h
    rw [List.length_eq_zero_iff, List.filter_eq_nil_iff] at hm
    exact absurd (by simpa using hn) (hm e he)
  | 1, hm =>
    simp only
    generalize hz : List.findIdx _ l = z
    have hz0 : (z : Int) ≥ 0 := Int.natCast_nonneg z
    have h2 : [avAt exp l z] = given exp l attr := single_at hm hz
    unfold fillMulti
    rw [if_pos hz0]
    refine ⟨hg.symm, by rw [hg]; rfl, fun _ => ?_⟩
    rw [Int.toNat_natCast]
    exact h2
  | m + 2, hm =>
    simp only
    unfold fillMulti
    have h0 : ¬ (-((m + 2 : Nat) : Int)) ≥ 0 := by omega
    have h1 : (- -((m + 2 : Nat) : Int)).toNat = m + 2 := by omega
    rw [if_neg h0, h1]
    refine ⟨hg.symm, ?_, ?_⟩
    · simp only
      rw [fillLoop_length (by omega), hm, hg]
    · rintro (h | ⟨a, b, rfl, ha, hb⟩)
      · omega
      · simp only
        have hf : (a ++ b).filter (fun e => decide (e.name = attr)) = a := by
          rw [List.filter_append, List.filter_eq_self.2 (by simpa using ha), List.filter_eq_nil_iff.2 (by simpa using hb), List.append_nil]
        rw [fillLoop_lead hb ha rfl (by rw [hf] at hm; omega), given, hf]

theorem given_none {exp : Str → Str} {l : List Ent} {attr : Str} : given exp l attr = [] ↔ ∀ e ∈ l, e.name ≠ attr := by
  simp [given, List.filter_eq_nil_iff]

/-- *Repeated options.*  The first place that gives the option is used; as many values are returned as it gives, and
the values are those given if it is given once or before all other options.  Missing: the values in other cases
(`multi_defect`). -/
theorem multi_partial {exp : Str → Str} {pa : PA} (h : Wf pa) (attr : Str) (key : Option Str) :
    ((∀ p ∈ places pa key, given exp p.avl attr = []) ∧ multivalue exp pa attr key = (0, [])) ∨
    ∃ a p b, places pa key = a ++ p :: b ∧ (∀ q ∈ a, given exp q.avl attr = []) ∧ given exp p.avl attr ≠ [] ∧
      (multivalue exp pa attr key).1 = (given exp p.avl attr).length ∧
      (multivalue exp pa attr key).2.length = (given exp p.avl attr).length ∧
      ((given exp p.avl attr).length = 1 ∨ Leading p.avl attr → (multivalue exp pa attr key).2 = given exp p.avl attr) := by
  have hk : ∀ x ∈ pa.idx, x.1 ≠ [] := fun x hx => (h.2.1 x hx).2
  have hb : key.bind (find pa.idx) = key.bind (entry pa) := by
    cases key with
    | none => rfl
    | some k => exact find_entry hk k
  let here (o : Option Pair) (els : Nat × List (Option Str)) : Nat × List (Option Str) := match o with
    | none => els
    | some lp => if avIdxOf lp.avl attr ≠ -1 then fillMulti exp lp.avl attr (avIdxOf lp.avl attr) else els
  let Good (ps : List Pair) (r : Nat × List (Option Str)) : Prop :=
    ((∀ p ∈ ps, given exp p.avl attr = []) ∧ r = (0, [])) ∨
    ∃ a p b, ps = a ++ p :: b ∧ (∀ q ∈ a, given exp q.avl attr = []) ∧ given exp p.avl attr ≠ [] ∧
      r.1 = (given exp p.avl attr).length ∧ r.2.length = (given exp p.avl attr).length ∧
      ((given exp p.avl attr).length = 1 ∨ Leading p.avl attr → r.2 = given exp p.avl attr)
  have step : ∀ o ps r, Good ps r → Good (o.toList ++ ps) (here o r) := by
    intro o ps r hg
    cases o with
    | none => simpa [here] using hg
    | some p =>
      simp only [here, Option.toList_some, List.singleton_append]
      by_cases hi : avIdxOf p.avl attr = -1
      · rw [if_neg (by simp [hi])]
        have hn := (given_none (exp := exp)).2 (idx_absent.1 hi)
        rcases hg with ⟨h1, h2⟩ | ⟨a, q, b, rfl, h2⟩
        · refine .inl ⟨?_, h2⟩
          intro q hq
          rcases List.mem_cons.1 hq with rfl | hq
          · exact hn
          · exact h1 q hq
        · refine .inr ⟨p :: a, q, b, rfl, ?_, h2.2⟩
          intro x hx
          rcases List.mem_cons.1 hx with rfl | hx
          · exact hn
          · exact h2.1 x hx
      · rw [if_pos hi]
        have hne : given exp p.avl attr ≠ [] := fun hh => hi (idx_absent.2 (given_none.1 hh))
        have hex : ∃ e ∈ p.avl, e.name = attr := by
          false_or_by_contra
          rename_i hc
          exact hi (idx_absent.2 fun e he hn => hc ⟨e, he, hn⟩)
        exact .inr ⟨[], p, ps, rfl, (fun _ hq => nomatch hq), hne, fillMulti_spec hex⟩
  have h0 : Good [] (0, []) := .inl ⟨(fun _ hq => nomatch hq), rfl⟩
  have := step (key.bind (entry pa)) _ _ (step (some pa.over) _ _ (step (entry pa pa.name) _ _ h0))
  simp only [List.append_nil] at this
  have e1 : places pa key = (key.bind (entry pa)).toList ++ ((some pa.over).toList ++ (entry pa pa.name).toList) := by
    simp [places]
  have e2 : multivalue exp pa attr key = here (key.bind (entry pa)) (here (some pa.over) (here (entry pa pa.name) (0, []))) := by
    unfold multivalue
    rw [hb, find_entry hk]
    rfl
  rw [e1, e2]
  exact this

/-- *Defect.*  When another option comes before a repeated one, its value is returned and the last of the repeated one
is not (`ldmsd_plugattr.c:724` uses `i` for `j`). -/
theorem multi_defect (exp : Str → Str) (n v a x y : Str) (hna : n ≠ a) (name : Str) :
    let pa : PA := ⟨⟨[⟨n, some v⟩, ⟨a, some x⟩, ⟨a, some y⟩], []⟩, name, []⟩
    Wf pa ∧ given exp pa.over.avl a = [some (exp x), some (exp y)] ∧
      multivalue exp pa a none = (2, [some (exp v), some (exp x)]) := by
  refine ⟨⟨by simp [Valued], by simp, by simp⟩, by simp [given, hna], ?_⟩
  simp [multivalue, find, avIdxOf, Verif.Av.idxLoop, hna, fillMulti, fillLoop, avAt]

example : ∃ pa : PA, Wf pa ∧ ¬ Leading pa.over.avl "b".toList ∧ Leading pa.over.avl "a".toList ∧
    multivalue id pa "a".toList none = (2, [some "1".toList, some "2".toList]) ∧
    value id pa "b".toList (some "x/y".toList) = some "4".toList ∧ value id pa "b".toList none = some "3".toList :=
  ⟨⟨⟨[⟨"a".toList, some "1".toList⟩, ⟨"a".toList, some "2".toList⟩, ⟨"b".toList, some "3".toList⟩], []⟩, "p".toList,
    [("x/y".toList, ⟨[⟨"b".toList, some "4".toList⟩], []⟩)]⟩,
    ⟨by simp [Valued], by simp [Valued], by simp⟩,
    by
      rintro ⟨a, b, h, ha, hb⟩
      cases a with
      | nil => exact hb ⟨"b".toList, some "3".toList⟩ (by rw [← List.nil_append b, ← h]; simp) rfl
      | cons e a =>
        have he : e = ⟨"a".toList, some "1".toList⟩ := by simp at h; simp [h.1]
        have := ha e (List.mem_cons_self ..)
        rw [he] at this
        simp at this,
    ⟨[⟨"a".toList, some "1".toList⟩, ⟨"a".toList, some "2".toList⟩], [⟨"b".toList, some "3".toList⟩], rfl, by simp, by simp⟩,
    by decide, by decide, by decide⟩

/-! ## what is accepted -/

theorem blacklist_iff {l : List Ent} : ∀ {ban : List Str} {bad : Nat}, blacklist ban l bad = true ↔ bad ≠ 0 ∨ Banned ban l
  | [], bad => by simp [blacklist, Banned]
  | b :: bs, bad => by
    unfold blacklist
    rw [blacklist_iff]
    by_cases h : avIdxOf l b = -1
    · have h' := idx_absent.1 h
      rw [if_neg (by simp [h])]
      unfold Banned
      constructor
      · rintro (h1 | ⟨e, he, h1⟩)
        · exact .inl h1
        · exact .inr ⟨e, he, List.mem_cons_of_mem _ h1⟩
      · rintro (h1 | ⟨e, he, h1⟩)
        · exact .inl h1
        · rcases List.mem_cons.1 h1 with h1 | h1
          · exact absurd h1 (h' e he)
          · exact .inr ⟨e, he, h1⟩
    · rw [if_pos h]
      refine ⟨fun _ => .inr ?_, fun _ => .inl (by omega)⟩
      false_or_by_contra
      rename_i hc
      exact h (idx_absent.2 fun e he hn => hc ⟨e, he, by simp [hn]⟩)

/-- names that occur more than once among the deprecated ones are there for different values -/
def Alternatives (deps : List Dep) : Prop :=
  deps.Pairwise fun a b => a.name = b.name → ∃ va vb, a.value = some va ∧ b.value = some vb ∧ va ≠ vb

theorem dep_hit {exp : Str → Str} {p : Pair} (hv : Valued p.avl) {d : Dep} :
    (avIdxOf p.avl d.name ≠ -1 ∧ (d.value = none ∨ d.value = avValue exp p.avl d.name)) ↔
    ((∃ e ∈ p.avl, e.name = d.name) ∧ (d.value = none ∨ (given exp p.avl d.name).head? = some d.value)) := by
  have h1 : avIdxOf p.avl d.name ≠ -1 ↔ ∃ e ∈ p.avl, e.name = d.name := by
    rw [ne_eq, idx_absent]; simp
  rw [h1]
  refine and_congr_right fun hex => or_congr_right ?_
  rw [avValue_given]
  cases hg : given exp p.avl d.name with
  | nil =>
    obtain ⟨e, he, hn⟩ := hex
    exact absurd hn (given_none.1 hg e he)
  | cons a b => simp [eq_comm]

theorem depLoop_iff {exp : Str → Str} {p : Pair} (hv : Valued p.avl) : ∀ {ds : List Dep} {last : Option Str} {bad : Nat}, Alternatives ds →
    (∀ d ∈ ds, last = some d.name → (∃ e ∈ p.kvl, e.name = d.name) ∨ ∃ v, d.value = some v ∧ (given exp p.avl d.name).head? ≠ some (some v)) →
    (depLoop exp p ds last bad ≠ 0 ↔ bad ≠ 0 ∨ Obsolete exp p ds)
  | [], last, bad, _, _ => by simp [depLoop, Obsolete]
  | d :: ds, last, bad, ha, hl => by
    have hkv : avIdxOf p.kvl d.name ≠ -1 ↔ ∃ e ∈ p.kvl, e.name = d.name := by
      rw [ne_eq, idx_absent]; simp
    have hd := dep_hit (exp := exp) hv (d := d)
    obtain ⟨ha1, ha2⟩ := List.pairwise_cons.1 ha
    have hl0 := hl d (List.mem_cons_self ..)
    unfold depLoop
    simp only
    have hnext : ∀ d' ∈ ds, (if avIdxOf p.kvl d.name ≠ -1 then some d.name else
        if avIdxOf p.avl d.name ≠ -1 ∧ last ≠ some d.name ∧ (d.value = none ∨ d.value = avValue exp p.avl d.name) then some d.name else last) = some d'.name →
        (∃ e ∈ p.kvl, e.name = d'.name) ∨ ∃ v, d'.value = some v ∧ (given exp p.avl d'.name).head? ≠ some (some v) := by
      intro d' hd' he
      by_cases h1 : avIdxOf p.kvl d.name ≠ -1
      · rw [if_pos h1] at he
        simp only [Option.some.injEq] at he
        exact .inl (he ▸ hkv.1 h1)
      · rw [if_neg h1] at he
        by_cases h2 : avIdxOf p.avl d.name ≠ -1 ∧ last ≠ some d.name ∧ (d.value = none ∨ d.value = avValue exp p.avl d.name)
        · rw [if_pos h2] at he
          simp only [Option.some.injEq] at he
          obtain ⟨va, vb, e1, e2, hne⟩ := ha1 d' hd' he
          have := (hd.1 ⟨h2.1, h2.2.2⟩).2
          rw [e1] at this
          simp only [reduceCtorEq, false_or] at this
          refine .inr ⟨vb, e2, ?_⟩
          rw [← he, this]
          simpa using hne
        · rw [if_neg h2] at he
          exact hl d' (List.mem_cons_of_mem _ hd') he
    rw [depLoop_iff hv ha2 hnext]
    have hsplit : Obsolete exp p (d :: ds) ↔ (d.error = true ∧ ((∃ e ∈ p.kvl, e.name = d.name) ∨
        ((∃ e ∈ p.avl, e.name = d.name) ∧ (d.value = none ∨ (given exp p.avl d.name).head? = some d.value)))) ∨ Obsolete exp p ds := by
      unfold Obsolete
      constructor
      · rintro ⟨x, hx, h⟩
        rcases List.mem_cons.1 hx with rfl | hx
        · exact .inl h
        · exact .inr ⟨x, hx, h⟩
      · rintro (h | ⟨x, hx, h⟩)
        · exact ⟨d, List.mem_cons_self .., h⟩
        · exact ⟨x, List.mem_cons_of_mem _ hx, h⟩
    rw [hsplit, ← or_assoc]
    refine or_congr_left ?_
    rw [← hkv, ← hd]
    by_cases hk : avIdxOf p.kvl d.name ≠ -1
    · cases d.error <;> simp [hk]
    · by_cases hlast : last = some d.name
      · rcases hl0 hlast with h | ⟨v, hv', hne⟩
        · exact absurd (hkv.2 h) hk
        · have : ¬ (avIdxOf p.avl d.name ≠ -1 ∧ (d.value = none ∨ d.value = avValue exp p.avl d.name)) := by
            rw [hd]
            rintro ⟨_, h | h⟩
            · rw [hv'] at h; cases h
            · rw [hv'] at h; exact hne h
          rw [if_neg (fun h => hk h.1), if_neg (fun h => this ⟨h.1.1, h.1.2.2⟩)]
          simp only [hk, this, or_self, and_false, or_false]
      · have hk' : ¬ (avIdxOf p.kvl d.name ≠ -1 ∧ d.error = true) := fun h => hk h.1
        rw [if_neg hk']
        by_cases hh : avIdxOf p.avl d.name ≠ -1 ∧ (d.value = none ∨ d.value = avValue exp p.avl d.name)
        · cases he : d.error with
          | true => rw [if_pos ⟨⟨hh.1, hlast, hh.2⟩, rfl⟩]; exact ⟨fun _ => .inr ⟨rfl, .inr hh⟩, fun _ => by omega⟩
          | false => rw [if_neg (by simp)]; simp
        · rw [if_neg (fun h => hh ⟨h.1.1, h.1.2.2⟩)]
          simp only [hk, hh, or_self, and_false, or_false]

/-- *Unsupported options.*  They are found if names are there twice only for different values. -/
theorem deprecated_partial {exp : Str → Str} {p : Pair} (hv : Valued p.avl) {deps : List Dep} (h : Alternatives deps) :
    deprecated exp p deps = true ↔ Obsolete exp p deps := by
  unfold deprecated
  rw [decide_eq_true_eq, depLoop_iff hv h (fun _ _ hh => by cases hh)]
  simp

/-- *Defect.*  A value that is no longer supported is accepted if its name is deprecated in an earlier entry. -/
theorem deprecated_defect (exp : Str → Str) (a v : Str) :
    let p : Pair := ⟨[⟨a, some v⟩], []⟩
    let deps : List Dep := [⟨a, none, false⟩, ⟨a, some (exp v), true⟩]
    Obsolete exp p deps ∧ deprecated exp p deps = false := by
  refine ⟨⟨⟨a, some (exp v), true⟩, by simp, rfl, .inr ⟨⟨⟨a, some v⟩, by simp, rfl⟩, .inr (by simp [given])⟩⟩, ?_⟩
  simp [deprecated, depLoop, avIdxOf, Verif.Av.idxLoop]

theorem getKey_iff {exp : Str → Str} {l : List Ent} : ∀ {keys : List Str} {k : Str}, getKey exp l keys = some k ↔ KeyOf exp l keys k
  | [], k => by
    unfold getKey KeyOf
    simp only [Option.some.injEq, List.map_nil, List.map_eq_nil_iff, exists_eq_left]
    rw [eq_comm]
    rfl
  | [a], k => by
    unfold getKey KeyOf
    rw [avValue_given]
    constructor
    · intro h
      exact ⟨[k], by simp [h], by simp⟩
    · rintro ⟨vs, h1, rfl⟩
      cases vs with
      | nil => simp at h1
      | cons v vs =>
        cases vs with
        | nil => simp at h1; simp [← h1]
        | cons w vs => simp at h1
  | a :: b :: ks, k => by
    unfold getKey
    have ih := fun k => getKey_iff (exp := exp) (l := l) (keys := b :: ks) (k := k)
    rw [avValue_given]
    constructor
    · intro h
      split at h
      · cases h
      · rename_i v hv
        split at h
        · cases h
        · rename_i r hr
          cases h
          obtain ⟨vs, h1, h2⟩ := (ih r).1 hr
          refine ⟨v :: vs, by rw [List.map_cons, List.map_cons, h1, hv], ?_⟩
          match vs, h1 with
          | w :: vs, h1 => rw [h2]; simp [List.intercalate]
    · rintro ⟨vs, h1, h2⟩
      cases vs with
      | nil => simp at h1
      | cons v vs =>
        rw [List.map_cons, List.map_cons (l := b :: ks), List.cons.injEq] at h1
        rw [← h1.1]
        simp only
        have := (ih _).2 ⟨vs, h1.2, rfl⟩
        rw [this, h2]
        cases vs with
        | nil => simp at h1
        | cons w vs => simp [List.intercalate]

/-- a later addition is refused -/
def Refused (exp : Str → Str) (p : Pair) (r : Rules) : Prop :=
  Obsolete exp p r.deps ∨ Banned r.kwban p.kvl ∨ Banned r.avban p.avl

theorem entry_none {pa : PA} {k : Str} : entry pa k = none ↔ k ∉ pa.idx.map (·.1) := by
  unfold entry
  rw [List.head?_eq_none_iff, List.map_eq_nil_iff, List.filter_eq_nil_iff, List.mem_map]
  constructor
  · rintro h ⟨x, hx, hk⟩
    exact h x hx (by simpa using hk)
  · intro h x hx hk
    exact h ⟨x, hx, by simpa using hk⟩

theorem entry_append {pa : PA} {k k' : Str} {p : Pair} (h : k ∉ pa.idx.map (·.1)) :
    entry { pa with idx := pa.idx ++ [(k, p)] } k' = if k' = k then some p else entry pa k' := by
  unfold entry
  simp only [List.filter_append, List.map_append]
  by_cases hk : k' = k
  · subst hk
    have : pa.idx.filter (fun x => decide (x.1 = k')) = [] := by
      rw [List.filter_eq_nil_iff]
      intro x hx hh
      exact h (List.mem_map.2 ⟨x, hx, by simpa using hh⟩)
    simp [this]
  · have hk2 : ¬ k = k' := fun hh => hk hh.symm
    simp [hk, hk2]

/-- *Additions.*  With at least one key attribute and a key that is not empty, an addition is made exactly if nothing in it
is refused, all key attributes have values and the key is new; then the entry of the key is what was added, and no other
entry has changed.  Otherwise nothing changes and the result is not zero.  Missing: the empty key
(`empty_key_defect`) and lists of deprecated names with overlaps (`deprecated_defect`). -/
theorem add_partial {exp : Str → Str} {pa : PA} {p : Pair} {r : Rules} (hw : Wf pa) (hv : Valued p.avl) (hk : r.keys ≠ [])
    (hd : Alternatives r.deps) (hne : ¬ KeyOf exp p.avl r.keys []) :
    ∃ pa' rc, add exp pa p r = some (pa', rc) ∧ Wf pa' ∧ pa'.over = pa.over ∧ pa'.name = pa.name ∧
      (rc = 0 ↔ ¬ Refused exp p r ∧ ∃ k, KeyOf exp p.avl r.keys k ∧ entry pa k = none) ∧
      (rc = 17 ↔ ¬ Refused exp p r ∧ ∃ k, KeyOf exp p.avl r.keys k ∧ entry pa k ≠ none) ∧
      (rc = 0 → ∀ k, KeyOf exp p.avl r.keys k → ∀ k', entry pa' k' = if k' = k then some p else entry pa k') ∧
      (rc ≠ 0 → pa' = pa) := by
  have hkey : ∀ x ∈ pa.idx, x.1 ≠ [] := fun x hx => (hw.2.1 x hx).2
  have huniq : ∀ {a b}, KeyOf exp p.avl r.keys a → KeyOf exp p.avl r.keys b → a = b := by
    intro a b h1 h2
    have := (getKey_iff.2 h1).symm.trans (getKey_iff.2 h2)
    simpa using this
  unfold add
  rw [if_neg hk]
  by_cases hr : Refused exp p r
  · have : ∀ x, (if deprecated exp p r.deps = true then some (pa, 1) else if blacklist r.kwban p.kvl 0 = true then some (pa, 1)
        else if blacklist r.avban p.avl 0 = true then some (pa, 1) else x) = some (pa, 1) := by
      intro x
      rcases hr with h | h | h
      · rw [if_pos ((deprecated_partial hv hd).2 h)]
      · split
        · rfl
        · rw [if_pos (blacklist_iff.2 (.inr h))]
      · split
        · rfl
        · split
          · rfl
          · rw [if_pos (blacklist_iff.2 (.inr h))]
    rw [this]
    exact ⟨pa, 1, rfl, hw, rfl, rfl, by simp [hr], by simp [hr], by simp, fun _ => rfl⟩
  · have h1 : ¬ deprecated exp p r.deps = true := fun h => hr (.inl ((deprecated_partial hv hd).1 h))
    have h2 : ¬ blacklist r.kwban p.kvl 0 = true := fun h => hr (.inr (.inl ((blacklist_iff.1 h).resolve_left (by simp))))
    have h3 : ¬ blacklist r.avban p.avl 0 = true := fun h => hr (.inr (.inr ((blacklist_iff.1 h).resolve_left (by simp))))
    rw [if_neg h1, if_neg h2, if_neg h3]
    cases hg : getKey exp p.avl r.keys with
    | none =>
      have hno : ¬ ∃ k, KeyOf exp p.avl r.keys k := fun ⟨k, h⟩ => by rw [getKey_iff.2 h] at hg; cases hg
      refine ⟨pa, 126, rfl, hw, rfl, rfl, ?_, ?_, by simp, fun _ => rfl⟩
      · simp only [show ¬ 126 = 0 by omega, false_iff]
        rintro ⟨_, k, h, _⟩
        exact hno ⟨k, h⟩
      · simp only [show ¬ 126 = 17 by omega, false_iff]
        rintro ⟨_, k, h, _⟩
        exact hno ⟨k, h⟩
    | some k =>
      have hK := getKey_iff.1 hg
      have hk0 : k ≠ [] := fun h => hne (h ▸ hK)
      simp only [insert, if_neg hk0, find_entry hkey]
      cases he : entry pa k with
      | some q =>
        refine ⟨pa, 17, rfl, hw, rfl, rfl, ?_, ?_, by simp, fun _ => rfl⟩
        · simp only [show ¬ 17 = 0 by omega, false_iff]
          rintro ⟨_, k', h, hn⟩
          rw [huniq h hK, he] at hn
          cases hn
        · simp only [true_iff]
          exact ⟨hr, k, hK, by simp [he]⟩
      | none =>
        have hnew := entry_none.1 he
        refine ⟨_, 0, rfl, ⟨hw.1, ?_, ?_⟩, rfl, rfl, ?_, ?_, ?_, by simp⟩
        · intro x hx
          rcases List.mem_append.1 hx with hx | hx
          · exact hw.2.1 x hx
          · cases List.mem_singleton.1 hx
            exact ⟨hv, hk0⟩
        · simp only [List.map_append, List.map_cons, List.map_nil]
          rw [List.nodup_append]
          refine ⟨hw.2.2, by simp, ?_⟩
          rintro a ha b hb rfl
          exact hnew (List.mem_singleton.1 hb ▸ ha)
        · simp only [true_iff]
          exact ⟨hr, k, hK, he⟩
        · simp only [show ¬ 0 = 17 by omega, false_iff]
          rintro ⟨_, k', h, hn⟩
          rw [huniq h hK] at hn
          exact hn he
        · intro _ k1 hk1 k'
          rw [huniq hk1 hK]
          exact entry_append hnew

example : ∃ (pa : PA) (p : Pair) (r : Rules), Wf pa ∧ Valued p.avl ∧ r.keys ≠ [] ∧ Alternatives r.deps ∧ r.deps.length = 2 ∧
    add id pa p r = some ({ pa with idx := pa.idx ++ [("x/y".toList, p)] }, 0) ∧ add id pa { p with avl := p.avl ++ [⟨"m".toList, some "o".toList⟩] } r = some (pa, 1) :=
  ⟨⟨⟨[], []⟩, "p".toList, [("q".toList, ⟨[], []⟩)]⟩, ⟨[⟨"a".toList, some "x".toList⟩, ⟨"b".toList, some "y".toList⟩], []⟩,
    ⟨["z".toList], [], [⟨"m".toList, some "o".toList, true⟩, ⟨"m".toList, some "n".toList, false⟩], ["a".toList, "b".toList]⟩,
    ⟨by simp [Valued], by simp [Valued], by simp⟩, by simp [Valued], by simp, by simp [Alternatives], rfl, by decide, by decide⟩

/-- *Defect.*  A key attribute with the empty value: the index is used with an empty key, for which it runs off its
layers. -/
theorem empty_key_defect (exp : Str → Str) (pa : PA) (k v : Str) (hv : exp v = []) :
    add exp pa ⟨[⟨k, some v⟩], []⟩ ⟨[], [], [], [k]⟩ = none := by
  simp [add, deprecated, depLoop, blacklist, getKey, avValue, hv, insert]

/-- *Defect.*  Different values of the key attributes give the same key, and the second is refused. -/
theorem key_collision_defect (a b c k k' : Str) (hk : k ≠ k') (pa : PA) (hw : Wf pa)
    (hq : entry pa (a ++ '/' :: (b ++ '/' :: c)) = none) :
    ∃ pa', add id pa ⟨[⟨k, some (a ++ '/' :: b)⟩, ⟨k', some c⟩], []⟩ ⟨[], [], [], [k, k']⟩ = some (pa', 0) ∧
      add id pa' ⟨[⟨k, some a⟩, ⟨k', some (b ++ '/' :: c)⟩], []⟩ ⟨[], [], [], [k, k']⟩ = some (pa', 17) := by
  have hkey : ∀ x ∈ pa.idx, x.1 ≠ [] := fun x hx => (hw.2.1 x hx).2
  refine ⟨{ pa with idx := pa.idx ++ [(a ++ '/' :: (b ++ '/' :: c), ⟨[⟨k, some (a ++ '/' :: b)⟩, ⟨k', some c⟩], []⟩)] }, ?_, ?_⟩
  · simp [add, deprecated, depLoop, blacklist, getKey, avValue, insert, hk, find_entry hkey, hq]
  · have hne : ∀ x ∈ pa.idx ++ [(a ++ '/' :: (b ++ '/' :: c), (⟨[⟨k, some (a ++ '/' :: b)⟩, ⟨k', some c⟩], []⟩ : Pair))], x.1 ≠ [] := by
      intro x hx
      rcases List.mem_append.1 hx with hx | hx
      · exact hkey x hx
      · cases List.mem_singleton.1 hx
        simp
    have := find_entry (pa := { pa with idx := pa.idx ++ [(a ++ '/' :: (b ++ '/' :: c), ⟨[⟨k, some (a ++ '/' :: b)⟩, ⟨k', some c⟩], []⟩)] }) hne (a ++ '/' :: (b ++ '/' :: c))
    rw [entry_append (entry_none.1 hq), if_pos rfl] at this
    simp only at this
    simp [add, deprecated, depLoop, blacklist, getKey, avValue, insert, hk, this]

theorem unexpected_eq {allowed : List Str} : ∀ {l : List Ent} {n : Nat}, unexpected allowed l n = n + (l.filter fun e => !decide (e.name ∈ allowed)).length
  | [], n => rfl
  | e :: l, n => by
    unfold unexpected
    rw [unexpected_eq]
    have : (allowed.any fun a => decide (e.name = a)) = decide (e.name ∈ allowed) := by
      rw [Bool.eq_iff_iff]
      simp
    rw [this]
    by_cases h : e.name ∈ allowed
    · simp [h]
    · simp [h]; omega

/-- *Checking a configuration* counts the names that are not allowed, and one if something is no longer supported. -/
theorem check_count {exp : Str → Str} {p : Pair} (hv : Valued p.avl) {deps : List Dep} (h : Alternatives deps) (anames knames : List Str) :
    (Obsolete exp p deps → configCheck exp anames knames p deps =
      1 + (p.avl.filter fun e => !decide (e.name ∈ anames)).length + (p.kvl.filter fun e => !decide (e.name ∈ knames)).length) ∧
    (¬ Obsolete exp p deps → configCheck exp anames knames p deps =
      (p.avl.filter fun e => !decide (e.name ∈ anames)).length + (p.kvl.filter fun e => !decide (e.name ∈ knames)).length) := by
  unfold configCheck
  rw [unexpected_eq, unexpected_eq]
  refine ⟨fun ho => ?_, fun ho => ?_⟩
  · rw [if_pos ((deprecated_partial hv h).2 ho)]
  · rw [if_neg (fun hh => ho ((deprecated_partial hv h).1 hh))]
    omega

end Verif.PlugAttr
