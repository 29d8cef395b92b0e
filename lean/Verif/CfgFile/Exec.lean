import Verif.CfgFile.Proofs

/-!
# Proofs: executing configuration files
-/

namespace Verif.CfgFile

variable {C : Type} {L : Lang C} {fs : String → Option (List Char)}

theorem Good_append {h a b : List C} : Good L h (a ++ b) ↔ Good L h a ∧ Good L (h ++ a) b := by
  induction a generalizing h with
  | nil => simp [Good]
  | cons c a ih => simp [Good, ih, and_assoc]

/-- The commands for this pass. -/
def sel (L : Lang C) (init : Bool) (cs : List (Nat × C)) : List (Nat × C) :=
  cs.filter fun c => L.prio c.2 != init

theorem run_parsed (file : String → List C → Out C) (init : Bool) : ∀ {es : List Ev} {cs : List (Nat × C)}
    {h : List C}, Parsed L es cs → (∀ c ∈ sel L init cs, L.incl c.2 = none) →
    Good L h ((sel L init cs).map (·.2)) →
    runLines file L init es h = .done (h ++ (sel L init cs).map (·.2))
  | [], [], h, _, _, _ => by simp [runLines, sel]
  | .line no t :: es, c :: cs, h, hp, hi, hg => by
    obtain ⟨h1, h2, h3⟩ := hp
    by_cases hpr : L.prio c.2 = init
    · have e : sel L init (c :: cs) = sel L init cs := by simp [sel, hpr]
      rw [e] at hi hg ⊢
      simp only [runLines, h2, if_pos hpr]
      exact run_parsed file init h3 hi hg
    · have e : sel L init (c :: cs) = c :: sel L init cs := by simp [sel, hpr]
      rw [e] at hi hg ⊢
      have hc := hi c (by simp)
      have hg1 : L.rc h c.2 = 0 := hg.1
      simp only [runLines, h2, if_neg hpr, hc, hg1, if_true]
      rw [run_parsed file init h3 (fun x hx => hi x (by simp [hx])) hg.2]
      simp

theorem run_parsed_fail (file : String → List C → Out C) (init : Bool) : ∀ {es : List Ev} {cs : List (Nat × C)}
    {h : List C} {a b : List (Nat × C)} {c : Nat × C}, Parsed L es cs → (∀ c ∈ sel L init cs, L.incl c.2 = none) →
    sel L init cs = a ++ c :: b → Good L h (a.map (·.2)) → L.rc (h ++ a.map (·.2)) c.2 ≠ 0 →
    runLines file L init es h =
      .failed (h ++ a.map (·.2) ++ [c.2]) (L.rc (h ++ a.map (·.2)) c.2) c.1
  | [], [], h, a, b, c, _, _, hs, _, _ => by simp [sel] at hs
  | .line no t :: es, x :: cs, h, a, b, c, hp, hi, hs, hg, hrc => by
    obtain ⟨h1, h2, h3⟩ := hp
    by_cases hpr : L.prio x.2 = init
    · have e : sel L init (x :: cs) = sel L init cs := by simp [sel, hpr]
      rw [e] at hi hs
      simp only [runLines, h2, if_pos hpr]
      exact run_parsed_fail file init h3 hi hs hg hrc
    · have e : sel L init (x :: cs) = x :: sel L init cs := by simp [sel, hpr]
      rw [e] at hi hs
      have hc := hi x (by simp)
      cases a with
      | nil =>
        simp only [List.nil_append] at hs
        obtain ⟨rfl, rfl⟩ := List.cons.inj hs
        simp only [List.map_nil, List.append_nil] at hrc ⊢
        simp only [runLines, h2, if_neg hpr, hc, if_neg hrc, h1]
      | cons y a =>
        simp only [List.cons_append] at hs
        obtain ⟨e1, hs'⟩ := List.cons.inj hs
        subst e1
        have hg1 : L.rc h x.2 = 0 := hg.1
        simp only [runLines, h2, if_neg hpr, hc, hg1, if_true]
        have := run_parsed_fail file init h3 (fun z hz => hi z (by simp [hz])) hs' (h := h ++ [x.2])
          hg.2 (by simpa using hrc)
        rw [this]
        simp

theorem run_expands (hI : ∀ c p, L.incl c = some p → L.prio c = true) {n : Nat} {es : List Ev} {cs : List C}
    (hE : Expands fs L n es cs) : ∀ {h : List C}, Good L h (cs.filter L.prio) →
    runLines (runFile fs L false n) L false es h = .done (h ++ cs.filter L.prio) := by
  induction hE with
  | nil => intro h _; simp [runLines]
  | @plain n no t c es cs h1 h2 h3 ih =>
    intro h hg
    by_cases hp : L.prio c = true
    · rw [List.filter_cons_of_pos hp] at hg ⊢
      have hg1 : L.rc h c = 0 := hg.1
      simp only [runLines, h1, hp, Bool.true_eq_false, if_false, h2, hg1, if_true]
      rw [ih hg.2]
      simp
    · rw [List.filter_cons_of_neg hp] at hg ⊢
      simp only [runLines, h1]
      rw [if_pos (by simpa using hp), ih hg]
  | @incl n no t t' c p es cs ds h1 h2 h3 h4 h5 ih1 ih2 =>
    intro h hg
    have hp := hI c p h2
    rw [List.filter_cons_of_pos hp, List.filter_append] at hg ⊢
    obtain ⟨_, hg2⟩ := hg
    obtain ⟨hga, hgb⟩ := Good_append.mp hg2
    have hf : runFile fs L false (n + 1) p (h ++ [c]) = .done (h ++ [c] ++ ds.filter L.prio) := by
      simp only [runFile, h3]
      exact ih1 hga
    simp only [runLines, h1, hp, Bool.true_eq_false, if_false, h2, hf]
    rw [ih2 hgb]
    simp

theorem run_files_first (hI : ∀ c p, L.incl c = some p → L.prio c = true) {n : Nat} {ps : List String}
    {top all : List C} (hF : Files fs L n ps top all) : ∀ {h : List C}, Good L h (all.filter L.prio) →
    runFiles fs L false (n + 1) ps h = .done (h ++ all.filter L.prio) := by
  induction hF with
  | nil => intro h _; simp [runFiles]
  | @cons p t ps cs ds top all h1 h2 h3 h4 ih =>
    intro h hg
    rw [List.filter_append] at hg ⊢
    obtain ⟨hga, hgb⟩ := Good_append.mp hg
    have hf : runFile fs L false (n + 1) p h = .done (h ++ ds.filter L.prio) := by
      simp only [runFile, h1]
      exact run_expands hI h3 hga
    simp only [runFiles, hf]
    rw [ih hgb]
    simp

theorem sel_map (cs : List (Nat × C)) :
    (sel L true cs).map (·.2) = (cs.map (·.2)).filter fun c => !L.prio c := by
  unfold sel
  rw [List.filter_map]
  congr 1
  apply List.filter_congr
  intro x _
  simp only [Function.comp]
  cases L.prio x.2 <;> rfl

theorem run_files_second (hI : ∀ c p, L.incl c = some p → L.prio c = true) {n : Nat} {ps : List String}
    {top all : List C} (hF : Files fs L n ps top all) : ∀ {h : List C},
    Good L h (top.filter fun c => !L.prio c) →
    runFiles fs L true (n + 1) ps h = .done (h ++ top.filter fun c => !L.prio c) := by
  induction hF with
  | nil => intro h _; simp [runFiles]
  | @cons p t ps cs ds top all h1 h2 h3 h4 ih =>
    intro h hg
    rw [List.filter_append] at hg ⊢
    obtain ⟨hga, hgb⟩ := Good_append.mp hg
    have hno : ∀ c ∈ sel L true cs, L.incl c.2 = none := by
      intro c hc
      unfold sel at hc
      have := (List.mem_filter.mp hc).2
      cases hi : L.incl c.2 with
      | none => rfl
      | some q => rw [hI _ _ hi] at this; cases this
    have hf : runFile fs L true (n + 1) p h = .done (h ++ (cs.map (·.2)).filter fun c => !L.prio c) := by
      simp only [runFile, h1]
      rw [← sel_map] at hga ⊢
      exact run_parsed _ true h2 hno hga
    simp only [runFiles, hf]
    rw [ih hgb]
    simp

/-! ## Whatever happens -/

/-- The commands executed in any outcome. -/
def Out.hist : Out C → List C
  | .done h => h
  | .failed h _ _ => h
  | _ => []

theorem lines_prio (file : String → List C → Out C)
    (hf : ∀ p h, (∀ c ∈ h, L.prio c = true) → ∀ c ∈ (file p h).hist, L.prio c = true) :
    ∀ (es : List Ev) (h : List C), (∀ c ∈ h, L.prio c = true) →
      ∀ c ∈ (runLines file L false es h).hist, L.prio c = true
  | [], h, hh => hh
  | .overrun :: _, h, hh => by intro c hc; cases hc
  | .line no t :: es, h, hh => by
    have ih := lines_prio file hf es
    simp only [runLines]
    cases L.parse t with
    | error e => exact hh
    | ok c =>
      simp only []
      by_cases hp : L.prio c = false
      · rw [if_pos hp]; exact ih h hh
      · rw [if_neg hp]
        have hh' : ∀ x ∈ h ++ [c], L.prio x = true := by
          intro x hx
          rcases List.mem_append.mp hx with hx | hx
          · exact hh x hx
          · simp at hx; subst hx; simpa using hp
        cases L.incl c with
        | none =>
          simp only []
          split
          · exact ih _ hh'
          · exact hh'
        | some p =>
          simp only []
          have := hf p (h ++ [c]) hh'
          cases hr : file p (h ++ [c]) with
          | done h' => rw [hr] at this; exact ih _ this
          | failed h' rc l => rw [hr] at this; exact this
          | overrun => intro x hx; cases hx
          | deep => intro x hx; cases hx

theorem file_prio : ∀ (n : Nat) (p : String) (h : List C), (∀ c ∈ h, L.prio c = true) →
    ∀ c ∈ (runFile fs L false n p h).hist, L.prio c = true
  | 0, _, _, _ => by intro c hc; cases hc
  | n + 1, p, h, hh => by
    simp only [runFile]
    cases fs p with
    | none => exact hh
    | some t => exact lines_prio _ (file_prio n) _ _ hh

theorem files_prio (n : Nat) : ∀ (ps : List String) (h : List C), (∀ c ∈ h, L.prio c = true) →
    ∀ c ∈ (runFiles fs L false n ps h).hist, L.prio c = true
  | [], h, hh => hh
  | p :: ps, h, hh => by
    have := file_prio (fs := fs) n p h hh
    simp only [runFiles]
    cases hr : runFile fs L false n p h with
    | done h' => rw [hr] at this; exact files_prio n ps h' this
    | failed h' rc l => rw [hr] at this; exact this
    | overrun => intro x hx; cases hx
    | deep => intro x hx; cases hx

theorem lines_done (file : String → List C → Out C) (hI : ∀ c p, L.incl c = some p → L.prio c = true) :
    ∀ {es : List Ev} {h h' : List C}, runLines file L false es h = .done h' → ∀ {no : Nat} {t : List Char},
      .line no t ∈ es → ∃ c, L.parse t = .ok c ∧ ∀ p, L.incl c = some p → ∃ h1 h2, file p h1 = .done h2
  | [], _, _, _, _, _, hm => by cases hm
  | .overrun :: _, _, _, hd, _, _, _ => by simp [runLines] at hd
  | .line no' t' :: es, h, h', hd, no, t, hm => by
    simp only [runLines] at hd
    cases hp : L.parse t' with
    | error _ => rw [hp] at hd; cases hd
    | ok c =>
      rw [hp] at hd
      simp only [] at hd
      have key : (∃ h0, runLines file L false es h0 = .done h') ∧
          ∀ p, L.incl c = some p → ∃ h1 h2, file p h1 = .done h2 := by
        by_cases hpr : L.prio c = false
        · rw [if_pos hpr] at hd
          refine ⟨⟨_, hd⟩, ?_⟩
          intro p hi
          rw [hI c p hi] at hpr
          cases hpr
        · rw [if_neg hpr] at hd
          cases hi : L.incl c with
          | none =>
            rw [hi] at hd
            simp only [] at hd
            split at hd
            · exact ⟨⟨_, hd⟩, fun _ h => nomatch h⟩
            · cases hd
          | some p =>
            rw [hi] at hd
            simp only [] at hd
            cases hf : file p (h ++ [c]) with
            | done h1 =>
              rw [hf] at hd
              refine ⟨⟨_, hd⟩, ?_⟩
              rintro q ⟨⟩
              exact ⟨_, _, hf⟩
            | failed _ _ _ => rw [hf] at hd; cases hd
            | overrun => rw [hf] at hd; cases hd
            | deep => rw [hf] at hd; cases hd
      rcases List.mem_cons.mp hm with hm | hm
      · cases hm
        exact ⟨c, hp, key.2⟩
      · obtain ⟨h0, h1⟩ := key.1
        exact lines_done file hI h1 hm

theorem reach_done (hI : ∀ c p, L.incl c = some p → L.prio c = true) {p q : String} (hr : Reach fs L p q) :
    ∀ {n : Nat} {h h' : List C}, runFile fs L false n p h = .done h' →
      ∃ m h1 h2, runFile fs L false m q h1 = .done h2 := by
  intro n h h' hd
  induction hr with
  | here => exact ⟨_, _, _, hd⟩
  | incl h1 h2 h3 h4 h5 ih =>
    obtain ⟨m, a, b, hm⟩ := ih
    cases m with
    | zero => cases hm
    | succ m =>
      simp only [runFile, h2] at hm
      obtain ⟨c', e1, e2⟩ := lines_done _ hI hm h3
      rw [h4] at e1
      cases e1
      obtain ⟨x, y, hxy⟩ := e2 _ h5
      exact ⟨m, x, y, hxy⟩

theorem files_done (n : Nat) {p : String} : ∀ {ps : List String} {h h' : List C}, p ∈ ps →
    runFiles fs L false n ps h = .done h' → ∃ h1 h2, runFile fs L false n p h1 = .done h2
  | [], _, _, hp, _ => by cases hp
  | q :: ps, h, h', hp, hd => by
    simp only [runFiles] at hd
    cases hr : runFile fs L false n q h with
    | done h'' =>
      rcases List.mem_cons.mp hp with hp | hp
      · subst hp; exact ⟨_, _, hr⟩
      · rw [hr] at hd; exact files_done n hp hd
    | failed _ _ _ => rw [hr] at hd; cases hd
    | overrun => rw [hr] at hd; cases hd
    | deep => rw [hr] at hd; cases hd

theorem files_bad (hI : ∀ c p, L.incl c = some p → L.prio c = true) (n : Nat) {p q : String} (hr : Reach fs L p q)
    (hb : Bad fs L q) {ps : List String} (hp : p ∈ ps) {h : List C} : ∀ h', runFiles fs L false n ps h ≠ .done h' := by
  intro h' hd
  obtain ⟨_, _, h1⟩ := files_done n hp hd
  obtain ⟨m, a, b, hm⟩ := reach_done hI hr h1
  cases m with
  | zero => cases hm
  | succ m =>
    cases hs : fs q with
    | none => simp [runFile, hs] at hm
    | some s =>
      simp only [runFile, hs] at hm
      obtain ⟨no, t, e, hm1, hm2⟩ := hb s hs
      obtain ⟨c, hc, _⟩ := lines_done _ hI hm hm1
      rw [hm2] at hc
      cases hc

/-! ## Depth -/

theorem lines_deeper (f g : String → List C → Out C) (init : Bool)
    (hfg : ∀ p h, f p h ≠ .deep → g p h = f p h) :
    ∀ (es : List Ev) (h : List C), runLines f L init es h ≠ .deep →
      runLines g L init es h = runLines f L init es h
  | [], _, _ => rfl
  | .overrun :: _, _, _ => rfl
  | .line no t :: es, h, hd => by
    have ih := lines_deeper f g init hfg es
    simp only [runLines] at hd ⊢
    cases hp : L.parse t with
    | error _ => rfl
    | ok c =>
      rw [hp] at hd
      simp only [] at hd ⊢
      split
      · rename_i hc
        rw [if_pos hc] at hd
        exact ih _ hd
      · rename_i hc
        rw [if_neg hc] at hd
        cases hi : L.incl c with
        | none =>
          rw [hi] at hd
          simp only [] at hd ⊢
          split
          · rename_i h0
            rw [if_pos h0] at hd
            exact ih _ hd
          · rfl
        | some p =>
          rw [hi] at hd
          simp only [] at hd ⊢
          cases hf : f p (h ++ [c]) with
          | deep => rw [hf] at hd; exact absurd rfl hd
          | done h' =>
            rw [hfg p _ (by rw [hf]; simp), hf]
            rw [hf] at hd
            exact ih _ hd
          | failed _ _ _ => rw [hfg p _ (by rw [hf]; simp), hf]
          | overrun => rw [hfg p _ (by rw [hf]; simp), hf]

theorem file_deeper (init : Bool) : ∀ (n : Nat) (p : String) (h : List C),
    runFile fs L init n p h ≠ .deep → runFile fs L init (n + 1) p h = runFile fs L init n p h
  | 0, _, _, hd => absurd rfl hd
  | n + 1, p, h, hd => by
    rw [runFile, runFile]
    rw [runFile] at hd
    cases hp : fs p with
    | none => rfl
    | some t =>
      rw [hp] at hd
      exact lines_deeper _ _ init (file_deeper init n) _ _ hd

end Verif.CfgFile
