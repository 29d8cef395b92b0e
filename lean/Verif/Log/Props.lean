import Verif.Log.Proofs

/-! # What a log holds, and what the names of levels mean -/

namespace Verif.Log

/-! ## Messages -/

/-- When the thread has written everything, the log holds what a log written at once would hold: each
message that its subsystem's level let through when it was logged, in the order of the calls, with the name
of its subsystem, in the file that was open then.  Before that it holds the first of these lines. -/
theorem log_content_partial {prog : Str} {level : Lv} {w : W} {s : S} (h : Run prog level w s) :
    (w.q = [] → w.lines = s.lines) ∧ w.lines <+: s.lines := by
  have hi := run_inv h
  refine ⟨fun hq => ?_, ?_⟩
  · have := hi.lines
    rw [hq] at this
    simpa [render] using this.symm
  · rw [hi.lines]; exact List.prefix_append _ _

/-- No step of a legal history is undefined, and the thread goes on as long as there is work. -/
theorem log_safe_partial {prog : Str} {level : Lv} {w : W} {s : S} (h : Run prog level w s) {e : Ev} (hl : Legal s e) :
    ∃ w' rc, step w e = some (w', rc) ∧ Run prog level w' (s.step rc e) := by
  obtain ⟨w', rc, he, _⟩ := inv_step (run_inv h) e hl
  exact ⟨w', rc, he, .step h hl he⟩

/-- The thread takes the messages one after the other, and adds at most one line at a time. -/
theorem log_work_progress {prog : Str} {level : Lv} {w : W} {s : S} (h : Run prog level w s) (hq : w.q ≠ []) :
    ∃ w', step w .work = some (w', 0) ∧ w'.q = w.q.tail ∧
      (w'.lines = w.lines ∨ ∃ x, w'.lines = w.lines ++ [x]) := by
  obtain ⟨w', rc, he, _⟩ := inv_step (run_inv h) .work trivial
  have : rc = 0 ∧ w'.q = w.q.tail ∧ (w'.lines = w.lines ∨ ∃ x, w'.lines = w.lines ++ [x]) := by
    simp only [step] at he
    split at he
    · rename_i e; exact absurd e hq
    · rename_i e
      split at he
      · exact nomatch he
      · obtain ⟨rfl, rfl⟩ := Prod.mk.inj (Option.some.inj he)
        rw [e]; exact ⟨rfl, rfl, .inr ⟨_, rfl⟩⟩
    · rename_i e
      split at he
      · exact nomatch he
      · split at he
        · exact nomatch he
        · obtain ⟨rfl, rfl⟩ := Prod.mk.inj (Option.some.inj he)
          rw [e]; exact ⟨rfl, rfl, .inr ⟨_, rfl⟩⟩
    · rename_i e
      split at he
      · exact nomatch he
      · split at he
        · exact nomatch he
        · split at he
          · obtain ⟨rfl, rfl⟩ := Prod.mk.inj (Option.some.inj he)
            rw [e]; exact ⟨rfl, rfl, .inl rfl⟩
          · obtain ⟨rfl, rfl⟩ := Prod.mk.inj (Option.some.inj he)
            rw [e]; exact ⟨rfl, rfl, .inl rfl⟩
    · rename_i e
      split at he
      · exact nomatch he
      · split at he
        · exact nomatch he
        · obtain ⟨rfl, rfl⟩ := Prod.mk.inj (Option.some.inj he)
          rw [e]; exact ⟨rfl, rfl, .inl rfl⟩
  obtain ⟨rfl, h1, h2⟩ := this
  exact ⟨w', he, h1, h2⟩

def exEvs : List Ev :=
  [.register "a".toList, .register "b".toList, .setLevel none 24, .setByName (some "b".toList) 1,
   .log (some 0) 8 "x".toList, .log (some 1) 8 "no".toList, .log (some 1) 1 "y".toList, .destroy 0,
   .openf 5 true, .log none 31 "z".toList, .work, .work, .work, .work]

/-- The legality of the calls of `exEvs`. -/
def legalB (s : S) : Ev → Bool
  | .destroy id => (s.sub id).isSome
  | .setLevel (some i) _ => (s.sub i).isSome
  | .log (some i) _ _ => (s.sub i).isSome
  | .openf _ _ => s.sink ≠ .syslog && s.sink ≠ .std
  | .closef => s.sink ≠ .null && s.sink ≠ .std
  | _ => true

theorem legalB_ok {s : S} {e : Ev} (h : legalB s e = true) : Legal s e := by
  cases e with
  | register n => trivial
  | destroy i => exact Option.isSome_iff_ne_none.1 h
  | setLevel i l => cases i with
    | none => trivial
    | some i => exact Option.isSome_iff_ne_none.1 h
  | setByName n l => trivial
  | setByRegex r l => trivial
  | log i l t => cases i with
    | none => trivial
    | some i => exact Option.isSome_iff_ne_none.1 h
  | openf p g => simpa [legalB, Legal] using h
  | closef => simpa [legalB, Legal] using h
  | work => trivial

def runs (w : W) (s : S) : List Ev → Option (W × S)
  | [] => some (w, s)
  | e :: es => if legalB s e = true then
      match step w e with
      | none => none
      | some (w', rc) => runs w' (s.step rc e) es
    else none

theorem runs_run {prog : Str} {level : Lv} : ∀ {es : List Ev} {w : W} {s : S} {r : W × S},
    Run prog level w s → runs w s es = some r → Run prog level r.1 r.2
  | [], w, s, r, h, e => by
    have := Option.some.inj e
    subst this
    exact h
  | ev :: es, w, s, r, h, e => by
    unfold runs at e
    split at e
    · rename_i hl
      split at e
      · exact nomatch e
      · rename_i w' rc hs
        exact runs_run (.step h (legalB_ok hl) hs) e
    · exact nomatch e

/-- Two subsystems of which one is destroyed before its message is written, and two files. -/
example : ∃ w s, Run "p".toList (some 31) w s ∧ w.q = [] ∧ w.lines =
    [⟨.std, "a".toList, 8, "x".toList⟩, ⟨.std, "b".toList, 1, "y".toList⟩, ⟨.file 5, "p".toList, 31, "z".toList⟩] := by
  have : (runs (init "p".toList (some 31)) (S.init "p".toList (some 31)) exEvs).map (fun r => (r.1.q, r.1.lines)) =
      some ([], [⟨.std, "a".toList, 8, "x".toList⟩, ⟨.std, "b".toList, 1, "y".toList⟩, ⟨.file 5, "p".toList, 31, "z".toList⟩]) := by
    decide +kernel
  obtain ⟨r, hr, he⟩ := Option.map_eq_some_iff.1 this
  have he := Prod.mk.inj he
  exact ⟨r.1, r.2, runs_run .init hr, he.1, he.2⟩

/-! ## Levels -/

/-- A message is let through exactly if its severity is in the set of levels, and "always" unless the set
is empty. -/
theorem log_passes_iff (m : Nat) (hm : m < 32) (sev : Sev) : Passes (some m) sev.value ↔ Lets m sev := by
  have : ∀ (m : Fin 32) (sev : Sev), (m.1 &&& sev.value ≠ 0) ↔ Lets m.1 sev := by
    intro m sev
    cases sev <;> (unfold Lets; revert m; decide +kernel)
  exact this ⟨m, hm⟩ sev

/-- Levels set are less than 32, and others are refused with EINVAL and change nothing. -/
theorem log_level_refused {w : W} (l : Int) (h : l < -1 ∨ 32 ≤ l) (id : Option Nat) :
    step w (.setLevel id l) = some (w, 22) := by
  have : validLevel l = none := by
    rw [level_eq]; unfold levelArg; rw [if_neg (by omega), if_neg (by omega)]
  simp only [step, this]

example : (-2 : Int) < -1 ∨ 32 ≤ (-2 : Int) := by decide

/-- Setting the level of one subsystem: it decides about that subsystem from then on, and about no other. -/
theorem log_level_set {s : S} {i : Nat} (hi : s.sub i ≠ none) (m : Nat) (hm : m < 32) (rc : Int) :
    (s.step rc (.setLevel (some i) m)).level (some i) = some m ∧
    ∀ j, j ≠ some i → (s.step rc (.setLevel (some i) m)).level j = s.level j := by
  have hv : levelArg (m : Int) = some (some m) := by
    unfold levelArg; rw [if_neg (by omega), if_pos (by omega)]; simp
  simp only [S.step, hv, S.setLevels]
  constructor
  · cases hs : s.sub i with
    | none => exact absurd hs hi
    | some e => simp [S.level, hs]
  · intro j hj
    cases j with
    | none => rfl
    | some j =>
      have : j ≠ i := fun e => hj (by rw [e])
      simp [S.level, this]

/-- A new subsystem has the level of the default one, and follows it. -/
theorem log_default_followed (s : S) (name : Str) (i : Nat) (m : Nat) (hm : m < 32) (rc : Int) :
    ((s.step i (.register name)).step rc (.setLevel none m)).level (some i) = some m := by
  have hv : levelArg (m : Int) = some (some m) := by
    unfold levelArg; rw [if_neg (by omega), if_pos (by omega)]; simp
  have hn : ¬ ((i : Int) < 0) := by omega
  simp [S.step, hv, hn, S.setSub, S.level]

/-- The answer to setting a level by name: ENOENT exactly if there is no such subsystem with messages to write
or in use. -/
theorem log_by_name_answer {w : W} (n : Str) (m : Nat) (hm : m < 32) :
    ∃ w', step w (.setByName (some n) m) = some (w', if ∃ x ∈ w.subs, x.name = n then 0 else 2) := by
  have hv : validLevel (m : Int) = some (some m) := by
    rw [level_eq]; unfold levelArg; rw [if_neg (by omega), if_pos (by omega)]; simp
  simp only [step, hv]
  cases hf : w.subs.find? (fun s => s.name = n) with
  | none =>
    refine ⟨w, ?_⟩
    rw [if_neg]
    rintro ⟨x, hx, e⟩
    have := List.find?_eq_none.1 hf x hx
    simp [e] at this
  | some x =>
    refine ⟨setLevel w (some x.id) (some m), ?_⟩
    rw [if_pos ⟨x, List.mem_of_find?_eq_some hf, by have := List.find?_some hf; simpa using this⟩]

example : ∃ x ∈ (init "p".toList (some 1)).subs ++ [⟨0, "a".toList, none, 1⟩], x.name = "a".toList := ⟨_, by simp [init]; rfl, rfl⟩

/-! ## Subsystems -/

/-- A name is refused exactly if a subsystem with it is in use, or destroyed with messages to write; a new
subsystem gets a number that no other has. -/
theorem log_register_partial {prog : Str} {level : Lv} {w : W} {s : S} (h : Run prog level w s) (name : Str) :
    ∃ w' rc, step w (.register name) = some (w', rc) ∧
      (rc < 0 → w' = w ∧ rc = -17) ∧
      (0 ≤ rc → s.sub rc.toNat = none ∧ (∀ t l, Item.msg (some rc.toNat) l t ∉ w.q)) ∧
      (rc < 0 ↔ (∃ i l, s.sub i = some (name, l)) ∨ (∃ x ∈ w.subs, x.name = name ∧ s.sub x.id = none ∧ ∃ l t, Item.msg (some x.id) l t ∈ w.q)) := by
  have hi := run_inv h
  have pend_mem : ∀ (q : List Item) (i : Nat), pend i q ≠ 0 ↔ ∃ l t, Item.msg (some i) l t ∈ q := by
    intro q i
    induction q with
    | nil => simp [pend]
    | cons a q ih =>
      cases a with
      | msg id l t =>
        cases id with
        | none => simpa [pend] using ih
        | some j =>
          unfold pend
          by_cases e : j = i
          · subst e
            simp only [if_true, List.mem_cons]
            exact ⟨fun _ => ⟨l, t, .inl rfl⟩, fun _ => by omega⟩
          · rw [if_neg e, Nat.zero_add, ih]
            simp only [List.mem_cons, Item.msg.injEq, Option.some.injEq]
            constructor
            · rintro ⟨a, b, h⟩; exact ⟨a, b, .inr h⟩
            · rintro ⟨a, b, h | h⟩
              · exact absurd h.1.symm e
              · exact ⟨a, b, h⟩
      | openf p g => simpa [pend] using ih
      | closef => simpa [pend] using ih
  by_cases hn : (w.subs.any fun s => s.name = name) = true
  · refine ⟨w, -17, by simp only [step]; rw [if_pos hn], fun _ => ⟨rfl, rfl⟩, fun h => absurd h (by decide), ?_⟩
    simp only [show (-17 : Int) < 0 from by decide, true_iff]
    obtain ⟨x, hx, e⟩ := List.any_eq_true.1 hn
    have e : x.name = name := by simpa using e
    cases hs : s.sub x.id with
    | some p =>
      obtain ⟨n, l⟩ := p
      have := hi.live x.id n l hs
      rw [look_mem hi.ids hx] at this
      have := congrArg Sub.name (Option.some.inj this)
      simp only [e] at this
      exact .inl ⟨x.id, l, by rw [hs, this]⟩
    | none =>
      exact .inr ⟨x, hx, e, hs, (pend_mem _ _).1 (hi.dead x.id x hs (look_mem hi.ids hx)).2⟩
  · refine ⟨_, _, by simp only [step]; rw [if_neg hn], fun h => absurd h (by omega), fun _ => ⟨?_, ?_⟩, ?_⟩
    · simp only [Int.toNat_natCast]
      refine Classical.byContradiction fun hc => ?_
      have := hi.slt _ hc
      omega
    · intro t l hm
      simp only [Int.toNat_natCast] at hm
      have := hi.queued _ ((pend_mem _ _).2 ⟨l, t, hm⟩)
      cases hk : look w.subs w.next with
      | none => exact this hk
      | some x =>
        have := hi.lt x (look_some hk).1
        rw [(look_some hk).2] at this
        omega
    · refine ⟨fun h => absurd h (by omega), ?_⟩
      have no : ¬ ∃ x ∈ w.subs, x.name = name := by
        rintro ⟨x, hx, e⟩
        exact hn (List.any_eq_true.2 ⟨x, hx, by simpa using e⟩)
      rintro (⟨i, l, hs⟩ | ⟨x, hx, e, _⟩)
      · exact absurd ⟨_, (look_some (hi.live i name l hs)).1, rfl⟩ no
      · exact absurd ⟨x, hx, e⟩ no

/-- Subsystems in use have different names. -/
theorem log_names_unique {prog : Str} {level : Lv} {w : W} {s : S} (h : Run prog level w s) {i j : Nat} {n : Str} {k l : Lv}
    (hi : s.sub i = some (n, k)) (hj : s.sub j = some (n, l)) : i = j := by
  have hv := run_inv h
  have a := hv.live i n k hi
  have b := hv.live j n l hj
  exact congrArg Sub.id (hv.same_name (look_some a).1 (look_some b).1 rfl)

/-- Storage of a destroyed subsystem is given back when its last message is written: after everything is written the
table holds just the subsystems in use, once each. -/
theorem log_table_exact {prog : Str} {level : Lv} {w : W} {s : S} (h : Run prog level w s) (hq : w.q = []) :
    (w.subs.map (·.id)).Nodup ∧ ∀ x, x ∈ w.subs ↔ x.refs = 1 ∧ s.sub x.id = some (x.name, x.level) := by
  have hi := run_inv h
  refine ⟨hi.ids, fun x => ⟨fun hx => ?_, fun hx => ?_⟩⟩
  · have hl := look_mem hi.ids hx
    cases hs : s.sub x.id with
    | none => exact absurd (by rw [hq]; rfl) (hi.dead x.id x hs hl).2
    | some p =>
      obtain ⟨n, l⟩ := p
      have := hi.live x.id n l hs
      rw [hl] at this
      have e := Option.some.inj this
      rw [hq] at e
      refine ⟨?_, ?_⟩
      · rw [e]; rfl
      · rw [e]
  · have := hi.live x.id x.name x.level hx.2
    rw [hq] at this
    have e : x = ⟨x.id, x.name, x.level, pend x.id [] + 1⟩ := by
      cases x
      simp only [pend, Sub.mk.injEq, true_and]
      simpa using hx.1
    exact e ▸ (look_some this).1

/-! ## Level names -/

/-- One name stands for that severity and all that are more severe. -/
theorem level_name_threshold {w : Str} {sev : Sev} (h : Names w sev) :
    ∃ m, strToLevel w = some m ∧ m < 32 ∧ m ≠ 0 ∧
      ∀ t : Sev, t ≠ .always → (Lets m t ↔ sev = .always ∨ sev.rank ≤ t.rank) := by
  have hc := names_no_comma h
  have hn := nameLevel_name h
  unfold strToLevel
  rw [if_pos hc, hn]
  cases sev <;> simp only [Sev.value]
  all_goals refine ⟨_, rfl, by decide, by decide, ?_⟩
  all_goals (intro t ht; cases t <;> first | exact absurd rfl ht | (simp only [Lets]; decide))

example : Names "Warn".toList .warning := by unfold Names; decide

/-- "quiet" stands for no severity at all. -/
theorem level_name_quiet {w : Str} (h : lower w = "quiet".toList) : strToLevel w = some 0 := by
  have hc : ',' ∉ w := by
    intro hc
    have := lower_comma hc
    rw [h] at this
    revert this; decide
  unfold strToLevel
  rw [if_pos hc, nameLevel_quiet h]
  rfl

example : lower "QUIET".toList = "quiet".toList := by decide

/-- Any other word is refused. -/
theorem level_name_unknown {w : Str} (hc : ',' ∉ w) (hq : lower w ≠ "quiet".toList) (hn : ∀ sev, ¬ Names w sev) :
    strToLevel w = none := by
  unfold strToLevel
  rw [if_pos hc]
  cases h : nameLevel w with
  | none => rfl
  | some l =>
    rcases nameLevel_some h with ⟨h, _⟩ | ⟨sev, h, _⟩
    · exact absurd h hq
    · exact absurd h (hn sev)

example : ',' ∉ "warnings".toList ∧ lower "warnings".toList ≠ "quiet".toList ∧ ∀ sev, ¬ Names "warnings".toList sev := by
  refine ⟨by decide, by decide, fun sev => ?_⟩
  unfold Names
  cases sev <;> decide

/-- A list of names stands for exactly these severities. -/
theorem level_list_exact {v : Str} {ws : List Str} {last : Str} (hw : ∀ w ∈ v :: ws, ',' ∉ w) (hl : ',' ∉ last) {m : Nat}
    (h : strToLevel (listText (v :: ws) last) = some m) :
    m < 32 ∧ ∀ t : Sev, t ≠ .always → (Lets m t ↔ ∃ w ∈ v :: ws ++ [last], Names w t ∨ Names w .always) := by
  unfold strToLevel at h
  rw [if_neg (fun hc => hc (listText_comma v ws last)), tokens_listText last hl _ hw] at h
  obtain ⟨_, hb⟩ := orAll_some h
  have ne : ∀ {w : Str} {sev : Sev}, Names w sev → w ≠ [] := by
    intro w sev hs e
    subst e
    cases sev <;> revert hs <;> unfold Names <;> decide
  have bits : ∀ j, m.testBit j = true ↔ ∃ w ∈ v :: ws ++ [last], ∃ sev, Names w sev ∧ (if sev = .always then j < 5 else j = sev.rank) := by
    intro j
    rw [hb j]
    simp only [Nat.zero_testBit, Bool.false_eq_true, false_or, value_bits]
    constructor
    · rintro ⟨w, hw, r⟩
      exact ⟨w, (List.mem_filter.1 hw).1, r⟩
    · rintro ⟨w, hw, sev, hs, r⟩
      exact ⟨w, List.mem_filter.2 ⟨hw, by simpa using ne hs⟩, sev, hs, r⟩
  constructor
  · refine Nat.lt_pow_two_of_testBit (n := 5) m fun j hj => ?_
    cases hjb : m.testBit j with
    | false => rfl
    | true =>
      obtain ⟨w, _, sev, _, r⟩ := (bits j).1 hjb
      cases sev <;> simp [Sev.rank] at r <;> omega
  · intro t ht
    have hr : t.rank < 5 := by cases t <;> first | exact absurd rfl ht | decide
    have inj : ∀ sev : Sev, t.rank = sev.rank → t = sev := by intro sev; cases t <;> cases sev <;> decide
    have hlt : Lets m t ↔ m.testBit t.rank = true := by
      cases t <;> first | exact absurd rfl ht | exact Iff.rfl
    rw [hlt, bits]
    constructor
    · rintro ⟨w, hw, sev, hs, r⟩
      refine ⟨w, hw, ?_⟩
      by_cases e : sev = .always
      · exact .inr (e ▸ hs)
      · rw [if_neg e] at r
        exact .inl (inj sev r ▸ hs)
    · rintro ⟨w, hw, hs | hs⟩
      · exact ⟨w, hw, t, hs, by rw [if_neg ht]⟩
      · exact ⟨w, hw, .always, hs, by rw [if_pos rfl]; exact hr⟩

/-- A list is refused exactly if one of its words is no name. -/
theorem level_list_refused {v : Str} {ws : List Str} {last : Str} (hw : ∀ w ∈ v :: ws, ',' ∉ w) (hl : ',' ∉ last) :
    strToLevel (listText (v :: ws) last) = none ↔
      ∃ w ∈ v :: ws ++ [last], w ≠ [] ∧ lower w ≠ "quiet".toList ∧ ∀ sev, ¬ Names w sev := by
  unfold strToLevel
  rw [if_neg (fun hc => hc (listText_comma v ws last)), tokens_listText last hl _ hw]
  constructor
  · intro h
    obtain ⟨w, hw, r⟩ := orAll_none h
    obtain ⟨hw, hne⟩ := List.mem_filter.1 hw
    exact ⟨w, hw, by simpa using hne, r⟩
  · rintro ⟨w, hw, hne, hq, hn⟩
    cases h : orAll ((v :: ws ++ [last]).filter fun w => decide (w ≠ [])) 0 with
    | none => rfl
    | some m =>
      rcases (orAll_some h).1 w (List.mem_filter.2 ⟨hw, by simpa using hne⟩) with h | ⟨sev, h⟩
      · exact absurd h hq
      · exact absurd h (hn sev)

example : (∀ w ∈ ["error".toList], ',' ∉ w) ∧ ',' ∉ "Info".toList ∧ strToLevel (listText ["error".toList] "Info".toList) = some 10 := by
  decide
example : strToLevel (listText ["error".toList] "foo".toList) = none := by decide

/-- Every text with a comma is such a list. -/
theorem level_list_all (s : Str) (h : ',' ∈ s) : ∃ v ws last, s = listText (v :: ws) last ∧ (∀ w ∈ v :: ws, ',' ∉ w) ∧ ',' ∉ last := by
  have gen : ∀ s : Str, ∃ ws last, s = listText ws last ∧ (∀ w ∈ ws, ',' ∉ w) ∧ ',' ∉ last := by
    intro s
    induction s with
    | nil => exact ⟨[], [], rfl, by simp, by simp⟩
    | cons c s ih =>
      obtain ⟨ws, last, e, hw, hl⟩ := ih
      by_cases hc : c = ','
      · exact ⟨[] :: ws, last, by rw [hc, e]; rfl, by simpa using hw, hl⟩
      · cases ws with
        | nil => exact ⟨[], c :: last, by rw [e]; rfl, by simp, by simpa using ⟨fun h => hc h.symm, hl⟩⟩
        | cons v ws =>
          refine ⟨(c :: v) :: ws, last, by rw [e]; rfl, ?_, hl⟩
          intro w hw'
          rcases List.mem_cons.1 hw' with e | hw'
          · subst e
            simpa using ⟨fun h => hc h.symm, hw v (by simp)⟩
          · exact hw w (by simp [hw'])
  obtain ⟨ws, last, e, hw, hl⟩ := gen s
  cases ws with
  | nil => exact absurd (show ',' ∈ listText [] last from e ▸ h) hl
  | cons v ws => exact ⟨v, ws, last, e, hw, hl⟩

/-- The text of a set of levels is read as that set. -/
theorem level_text_round_trip (l : Nat) (h : l < 32) : strToLevel (levelToStr l) = some l := by
  have : ∀ l : Fin 32, strToLevel (levelToStr l.1) = some l.1 := by decide +kernel
  exact this ⟨l, h⟩

/-! ## Defects -/

/-- The levels are set, and the answer is an error, if the last name does not match. -/
theorem set_by_regex_answer_defect :
    ∃ w s, Run "p".toList (some 31) w s ∧ ∃ w', step w (.setByRegex (fun n => decide (n = "a".toList)) 1) = some (w', 1) ∧
      (look w'.subs 0).map (·.level) = some (some 1) := by
  have : ((runs (init "p".toList (some 31)) (S.init "p".toList (some 31)) [.register "a".toList, .register "b".toList]).bind fun r =>
      (step r.1 (.setByRegex (fun n => decide (n = "a".toList)) 1)).map fun q => (q.2, (look q.1.subs 0).map (·.level))) =
      some (1, some (some 1)) := by decide +kernel
  obtain ⟨r, hr, h2⟩ := Option.bind_eq_some_iff.1 this
  obtain ⟨q, hq, he⟩ := Option.map_eq_some_iff.1 h2
  have he := Prod.mk.inj he
  exact ⟨r.1, r.2, runs_run .init hr, q.1, by rw [hq, ← he.1], he.2⟩

/-- A level that is refused elsewhere is accepted here, and nothing is set. -/
theorem set_by_regex_invalid_defect :
    ∃ w s, Run "p".toList (some 31) w s ∧ step w (.setByRegex (fun _ => true) 1000) = some (w, 0) := by
  have : ((runs (init "p".toList (some 31)) (S.init "p".toList (some 31)) [.register "a".toList]).bind fun r =>
      (step r.1 (.setByRegex (fun _ => true) 1000)).map fun q => (q.2, decide (q.1 = r.1))) = some (0, true) := by decide +kernel
  obtain ⟨r, hr, h2⟩ := Option.bind_eq_some_iff.1 this
  obtain ⟨q, hq, he⟩ := Option.map_eq_some_iff.1 h2
  have he := Prod.mk.inj he
  exact ⟨r.1, r.2, runs_run .init hr, by rw [hq, ← he.1, ← of_decide_eq_true he.2]⟩

/-- The calls one after the other, without any condition. -/
def all (w : W) : List Ev → Option W
  | [] => some w
  | e :: es => match step w e with
    | none => none
    | some (w', _) => all w' es

/-- A name cannot be taken again while messages of the destroyed subsystem are to be written. -/
theorem register_again_defect :
    ∃ w s, Run "p".toList (some 31) w s ∧ (∀ i, s.sub i = none) ∧ step w (.register "a".toList) = some (w, -17) := by
  have : ((runs (init "p".toList (some 31)) (S.init "p".toList (some 31)) [.register "a".toList, .log (some 0) 8 [], .destroy 0]).bind fun r =>
      (step r.1 (.register "a".toList)).map fun q => (q.2, decide (q.1 = r.1))) = some (-17, true) := by decide +kernel
  obtain ⟨r, hr, h2⟩ := Option.bind_eq_some_iff.1 this
  obtain ⟨q, hq, he⟩ := Option.map_eq_some_iff.1 h2
  have he := Prod.mk.inj he
  refine ⟨r.1, r.2, runs_run .init hr, ?_, by rw [hq, ← he.1, ← of_decide_eq_true he.2]⟩
  intro i
  have hr := Option.some.inj (hr.symm.trans (show _ = some _ from rfl))
  rw [hr]
  show (if i = 0 then none else if i = 0 then _ else none) = none
  split <;> rfl

/-- Opening a log after syslog, closing a log when none was opened, and logging after a second close are
undefined. -/
theorem open_after_syslog_defect (prog : Str) (l : Lv) (n : Nat) : all (init prog l) [.openf 0 true, .openf n true, .work, .work] = none := rfl
theorem close_unopened_defect (prog : Str) (l : Lv) : all (init prog l) [.closef, .work] = none := rfl
theorem log_after_second_close_defect (prog : Str) (n m : Nat) (t : Str) :
    all (init prog (some 31)) [.openf (n + 1) true, .closef, .openf (m + 1) true, .closef, .log none 31 t, .work, .work, .work, .work, .work] = none := rfl

/-- After opening syslog the variable `stdout` of the process is the mark for syslog, which is no stream. -/
theorem stdout_is_mark_defect (prog : Str) (l : Lv) : (all (init prog l) [.openf 0 true, .work]).map (·.out) = some .syslog := rfl

/-- Opening and closing a log leaves the standard error on both outputs and on standard input. -/
theorem descriptors_defect (f : Fds) (n : Nat) : closeFds (openFds (cacheFds f) n) = ⟨f.fd2, f.fd2, f.fd2⟩ := rfl

/-- A default level of -1 lets everything through. -/
theorem default_level_all_defect (prog : Str) (sev : Sev) : Passes (S.init prog none |>.level none) sev.value := by
  cases sev <;> (show _ ≠ 0; decide)

/-- "quiet" in a list has no effect. -/
theorem quiet_in_list_defect : strToLevel "ERROR,QUIET".toList = some 8 := by decide

end Verif.Log
