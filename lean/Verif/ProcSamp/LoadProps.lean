import Verif.ProcSamp.NetProps

/-!
# C81: loadavg
-/

namespace Verif.ProcSamp

/-- the fields of the file, in its order -/
def loads : List Str :=
  ["load1min", "load5min", "load15min", "runnable", "scheduling_entities", "newest_pid"].map fun s => s.toList.map Char.toNat

theorem loads_eq : laNames = loads := by decide

theorem laMark_ok : ∀ {ms : List Str} {flags : List Bool}, (∀ m ∈ ms, m ∈ laNames) → flags.length = 6 →
    (laMark flags ms).2 = true ∧ (laMark flags ms).1.length = 6 ∧
      ∀ (i : Nat) n b, laNames[i]? = some n → flags[i]? = some b → (laMark flags ms).1[i]? = some (b || decide (n ∈ ms))
  | [], flags, _, hl => ⟨rfl, hl, fun i n b _ hb => by simpa [laMark] using hb⟩
  | m :: ms, flags, h, hl => by
    have hm := h m (by simp)
    have hi := idxOf_lt hm
    have h6 : laNames.length = 6 := by decide
    obtain ⟨h1, h2, h3⟩ := laMark_ok (ms := ms) (flags := flags.set (laNames.idxOf m) true) (fun m hm => h m (by simp [hm])) (by simpa using hl)
    rw [laMark, if_pos hm]
    refine ⟨h1, h2, ?_⟩
    intro i n b hn hb
    by_cases e : laNames.idxOf m = i
    · have hnm : n = m := by
        have := idxOf_get hm
        rw [e, hn] at this
        simpa using this
      rw [h3 i n true hn (by rw [e, List.getElem?_set_self (by omega)])]
      simp [hnm]
    · have hnm : n ≠ m := by
        intro hh
        subst hh
        have hnd : laNames.Nodup := by decide
        have hlt := (List.getElem?_eq_some_iff.1 hn)
        apply e
        rw [← hlt.2]
        exact hnd.idxOf_getElem _ _
      rw [h3 i n b hn (by rw [List.getElem?_set_ne e]; exact hb)]
      simp [hnm]

/-- **C81.**  loadavg with a list of names collects exactly those, and without a list all six, in a plugin that was just loaded. -/
theorem la_select {ms : List Str} (h : ∀ m ∈ ms, m ∈ loads) (force : Bool) :
    (laConfig la0 force none).1.flags = List.replicate 6 true ∧
    ∃ sch, (laConfig la0 force (some (commas ms))).2 = .ok sch ∧ (laConfig la0 force (some (commas ms))).1.flags.length = 6 ∧
      ∀ (i : Nat) n, loads[i]? = some n → (laConfig la0 force (some (commas ms))).1.flags[i]? = some (decide (n ∈ ms)) := by
  rw [← loads_eq] at h ⊢
  have ht : tokens [] (commas ms) = ms := tokens_commas fun m hm => by
    have : ∀ n ∈ laNames, n ≠ [] ∧ 44 ∉ n := by decide
    exact this m (h m hm)
  obtain ⟨h1, h2, h3⟩ := laMark_ok h (flags := List.replicate 6 false) (by simp)
  refine ⟨rfl, ?_⟩
  simp only [laConfig, laParse, ht, h1, if_true]
  refine ⟨_, rfl, h2, ?_⟩
  intro i n hn
  have : i < 6 := (List.getElem?_eq_some_iff.1 hn).1
  rw [h3 i n false hn (by rw [List.getElem?_replicate, if_pos this])]
  simp

theorem laMark_unknown : ∀ {ms : List Str} {flags : List Bool} {m : Str}, m ∈ ms → m ∉ laNames → (laMark flags ms).2 = false
  | [], _, _, h, _ => by simp at h
  | x :: ms, flags, m, h, hm => by
    rw [laMark]
    by_cases hx : x ∈ laNames
    · rw [if_pos hx]
      rcases List.mem_cons.1 h with rfl | h
      · exact absurd hx hm
      · exact laMark_unknown h hm
    · rw [if_neg hx]

/-- **C81.**  A name that is none of the six is refused. -/
theorem la_unknown {l : La} {ms : List Str} {m : Str} (hc : ∀ x ∈ ms, x ≠ [] ∧ 44 ∉ x) (hm : m ∈ ms) (hu : m ∉ loads) (force : Bool) :
    (laConfig l force (some (commas ms))).2 = .error 22 := by
  rw [← loads_eq] at hu
  simp only [laConfig, laParse, tokens_commas hc, laMark_unknown hm hu, Bool.false_eq_true, if_false]
  rfl

/-- **C81.**  Each metric of the set gets the field of the file that has its name: the `i`-th field is found in the metric named after it, converted if
integers were asked for and it is one of the three averages; and there is a metric for it exactly when it is collected. -/
theorem la_faithful {V : Type} (cent : V → V) (force : Bool) {flags : List Bool} {fields : List V} (h6 : flags.length = 6) (hf : fields.length = 6) :
    (laMetrics flags).Nodup ∧ (laMetrics flags).length = (laValues cent force flags fields).length ∧
    ∀ (i : Nat) n v, loads[i]? = some n → fields[i]? = some v →
      (n ∈ laMetrics flags ↔ flags[i]? = some true) ∧
      (flags[i]? = some true → ∃ k : Nat, (laMetrics flags)[k]? = some n ∧
        (laValues cent force flags fields)[k]? = some (if force = true ∧ i < 3 then cent v else v)) := by
  rw [← loads_eq]
  match flags, fields, h6, hf with
  | [b0, b1, b2, b3, b4, b5], [v0, v1, v2, v3, v4, v5], _, _ =>
    refine ⟨?_, ?_, ?_⟩
    · revert b0 b1 b2 b3 b4 b5
      decide
    · cases b0 <;> cases b1 <;> cases b2 <;> cases b3 <;> cases b4 <;> cases b5 <;> rfl
    · intro i n v hn hv
      have hi : i < 6 := (List.getElem?_eq_some_iff.1 hn).1
      constructor
      · rcases i with _ | _ | _ | _ | _ | _ | i
        all_goals first
          | omega
          | (obtain rfl := Option.some.inj hn
             cases b0 <;> cases b1 <;> cases b2 <;> cases b3 <;> cases b4 <;> cases b5 <;> decide)
      · rcases i with _ | _ | _ | _ | _ | _ | i
        · intro hb
          simp at hb hv; subst hb hv
          exact ⟨0, hn, by cases force <;> rfl⟩
        · intro hb
          simp at hb hv; subst hb hv
          cases b0
          · exact ⟨0, hn, by cases force <;> rfl⟩
          · exact ⟨1, hn, by cases force <;> rfl⟩
        · intro hb
          simp at hb hv; subst hb hv
          cases b0 <;> cases b1
          · exact ⟨0, hn, by cases force <;> rfl⟩
          · exact ⟨1, hn, by cases force <;> rfl⟩
          · exact ⟨1, hn, by cases force <;> rfl⟩
          · exact ⟨2, hn, by cases force <;> rfl⟩
        · intro hb
          simp at hb hv; subst hb hv
          have e : (if force = true ∧ 3 < 3 then cent v3 else v3) = v3 := by simp
          refine ⟨b0.toNat + b1.toNat + b2.toNat, ?_, ?_⟩
          · cases b0 <;> cases b1 <;> cases b2 <;> exact hn
          · cases b0 <;> cases b1 <;> cases b2 <;> cases force <;> rfl
        · intro hb
          simp at hb hv; subst hb hv
          refine ⟨b0.toNat + b1.toNat + b2.toNat + b3.toNat, ?_, ?_⟩
          · cases b0 <;> cases b1 <;> cases b2 <;> cases b3 <;> exact hn
          · cases b0 <;> cases b1 <;> cases b2 <;> cases b3 <;> cases force <;> rfl
        · intro hb
          simp at hb hv; subst hb hv
          refine ⟨b0.toNat + b1.toNat + b2.toNat + b3.toNat + b4.toNat, ?_, ?_⟩
          · cases b0 <;> cases b1 <;> cases b2 <;> cases b3 <;> cases b4 <;> exact hn
          · cases b0 <;> cases b1 <;> cases b2 <;> cases b3 <;> cases b4 <;> cases force <;> rfl
        · omega

theorem flags_inj : ∀ {f g : List Bool}, (f.map fun b => if b then 49 else 48) = (g.map fun b => if b then (49 : Nat) else 48) → f = g
  | [], [], _ => rfl
  | [], _ :: _, h => by simp at h
  | _ :: _, [], h => by simp at h
  | b :: f, c :: g, h => by
    simp only [List.map_cons, List.cons.injEq] at h
    rw [flags_inj h.2]
    cases b <;> cases c <;> simp_all

theorem all_true : ∀ {f : List Bool}, f.all id = true → f = List.replicate f.length true
  | [], _ => rfl
  | b :: f, h => by
    simp only [List.all_cons, id_eq, Bool.and_eq_true] at h
    rw [List.length_cons, List.replicate_succ, ← all_true h.2, h.1]

/-- **C81.**  The names of the schemas that loadavg makes tell the sets of metrics and their types apart: two choices have the same name only if they
are the same. -/
theorem la_schema_inj {f g : List Bool} {i j : Bool} (hf : f.length = 6) (hg : g.length = 6) (h : laSchema f i = laSchema g j) : f = g ∧ i = j := by
  unfold laSchema at h
  simp only [List.append_assoc] at h
  have h := List.append_cancel_left h
  have hne : ∀ x : List Bool, ∀ c ∈ (if x.all id then [] else x.map fun b => if b then (49 : Nat) else 48), c ≠ 105 := by
    intro x c hc
    split at hc
    · simp at hc
    · obtain ⟨b, -, rfl⟩ := List.mem_map.1 hc
      cases b <;> decide
  have same : (if f.all id then [] else f.map fun b => if b then (49 : Nat) else 48) = (if g.all id then [] else g.map fun b => if b then (49 : Nat) else 48) → f = g := by
    intro e
    by_cases h1 : f.all id = true <;> by_cases h2 : g.all id = true
    · rw [all_true h1, all_true h2, hf, hg]
    · rw [if_pos h1, if_neg h2] at e
      have := congrArg List.length e
      simp [hg] at this
    · rw [if_neg h1, if_pos h2] at e
      have := congrArg List.length e
      simp [hf] at this
    · rw [if_neg h1, if_neg h2] at e
      exact flags_inj e
  cases i <;> cases j
  · exact ⟨same (by simpa using h), rfl⟩
  · simp only [Bool.false_eq_true, if_false, if_true, List.nil_append] at h
    exact absurd rfl (hne f 105 (by rw [h]; simp))
  · simp only [Bool.false_eq_true, if_false, if_true, List.nil_append] at h
    exact absurd rfl (hne g 105 (by rw [← h]; simp))
  · exact ⟨same (by simpa using h), rfl⟩

/-- **C81, defect.**  What a refused `config` of loadavg said stays: a later one without a list collects what the refused one named before its mistake (here
one of the six), and integers stay asked for. -/
theorem la_leftover_defect :
    let first := laConfig la0 true (some ("load1min,lode5min".toList.map Char.toNat))
    first.2 = .error 22 ∧ (laConfig first.1 false none).1 = ⟨[true, false, false, false, false, false], true⟩ := by
  decide

end Verif.ProcSamp
