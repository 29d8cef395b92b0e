import Verif.Csv.Spec

/-! # Reading what was written -/

namespace Verif.Csv

open RowJson (IKind FKind dec decInt dec6 digit)

/-- A text is read as a field. -/
def Rd (t f : List Char) : Prop :=
  (∀ row s, scan .start [] row (t ++ ',' :: s) = scan .start [] (row ++ [f]) s) ∧
  (∀ row s, scan .start [] row (t ++ '\n' :: s) = (scan .start [] [] s).map ((row ++ [f]) :: ·))

theorem scan_plain_comma : ∀ (t cur : List Char) (row : List (List Char)) (s : List Char), Clean t →
    scan .plain cur row (t ++ ',' :: s) = scan .start [] (row ++ [cur ++ t]) s
  | [], cur, row, s, _ => by simp [scan]
  | c :: t, cur, row, s, h => by
    have hc := h c (by simp)
    simp only [List.cons_append, scan, if_neg hc.1, if_neg hc.2.1, if_neg hc.2.2]
    rw [scan_plain_comma t _ row s (fun d hd => h d (by simp [hd]))]
    simp

theorem scan_plain_nl : ∀ (t cur : List Char) (row : List (List Char)) (s : List Char), Clean t →
    scan .plain cur row (t ++ '\n' :: s) = (scan .start [] [] s).map ((row ++ [cur ++ t]) :: ·)
  | [], cur, row, s, _ => by simp [scan]
  | c :: t, cur, row, s, h => by
    have hc := h c (by simp)
    simp only [List.cons_append, scan, if_neg hc.1, if_neg hc.2.1, if_neg hc.2.2]
    rw [scan_plain_nl t _ row s (fun d hd => h d (by simp [hd]))]
    simp

theorem rd_plain {t : List Char} (h : Clean t) : Rd t t := by
  cases t with
  | nil => exact ⟨fun row s => by simp [scan], fun row s => by simp [scan]⟩
  | cons c t =>
    have hc := h c (by simp)
    have ht : Clean t := fun d hd => h d (by simp [hd])
    refine ⟨fun row s => ?_, fun row s => ?_⟩
    · simp only [List.cons_append, scan, if_neg hc.1, if_neg hc.2.1, if_neg hc.2.2]
      rw [scan_plain_comma t _ row s ht]; rfl
    · simp only [List.cons_append, scan, if_neg hc.1, if_neg hc.2.1, if_neg hc.2.2]
      rw [scan_plain_nl t _ row s ht]; rfl

theorem scan_quoted : ∀ (t cur : List Char) (row : List (List Char)) (s : List Char),
    (∀ c ∈ t, c ≠ '"') → scan .quoted cur row (t ++ '"' :: s) = scan .closed (cur ++ t) row s
  | [], cur, row, s, _ => by simp [scan]
  | c :: t, cur, row, s, h => by
    have hc := h c (by simp)
    simp only [List.cons_append, scan, if_neg hc]
    rw [scan_quoted t _ row s (fun d hd => h d (by simp [hd]))]
    simp

theorem rd_quoted {t : List Char} (h : ∀ c ∈ t, c ≠ '"') : Rd ('"' :: t ++ ['"']) t := by
  refine ⟨fun row s => ?_, fun row s => ?_⟩
  · simp only [List.cons_append, List.append_assoc, List.nil_append, scan, if_true]
    rw [scan_quoted t _ row _ h]
    simp [scan]
  · simp only [List.cons_append, List.append_assoc, List.nil_append, scan, if_true]
    rw [scan_quoted t _ row _ h]
    simp [scan]

theorem rd_wsqt {cfg : Cfg} {t : List Char} (h : TextOk cfg t) :
    Rd (wsqt cfg ++ t ++ wsqt cfg) t := by
  unfold TextOk at h
  unfold wsqt
  split
  · next hi =>
    rw [if_pos hi] at h
    exact rd_quoted h
  · next hi =>
    rw [if_neg hi] at h
    simpa using rd_plain h

/-- Fields, each after a comma. -/
def Tail (x : List Char) (fs : List (List Char)) : Prop :=
  ∃ l : List (List Char × List Char),
    x = (l.map fun p => ',' :: p.1).flatten ∧ fs = l.map (·.2) ∧ ∀ p ∈ l, Rd p.1 p.2

theorem Tail.nil : Tail [] [] := ⟨[], rfl, rfl, by simp⟩

theorem Tail.one {t f : List Char} (h : Rd t f) : Tail (',' :: t) [f] :=
  ⟨[(t, f)], by simp, rfl, by simpa using h⟩

theorem Tail.append {x y : List Char} {fs gs : List (List Char)} (h : Tail x fs) (g : Tail y gs) :
    Tail (x ++ y) (fs ++ gs) := by
  obtain ⟨l, rfl, rfl, hl⟩ := h
  obtain ⟨m, rfl, rfl, hm⟩ := g
  refine ⟨l ++ m, by simp, by simp, ?_⟩
  intro p hp
  rcases List.mem_append.mp hp with hp | hp
  · exact hl p hp
  · exact hm p hp

theorem Tail.cons {t f y : List Char} {gs : List (List Char)} (h : Rd t f) (g : Tail y gs) :
    Tail (',' :: t ++ y) (f :: gs) := (Tail.one h).append g

theorem Tail.flatten {α : Type} (l : List α) (x : α → List Char) (fs : α → List (List Char))
    (h : ∀ a ∈ l, Tail (x a) (fs a)) : Tail (l.map x).flatten (l.map fs).flatten := by
  induction l with
  | nil => exact Tail.nil
  | cons a l ih =>
    simp only [List.map_cons, List.flatten_cons]
    exact (h a (by simp)).append (ih fun b hb => h b (by simp [hb]))

theorem scan_line {t f x : List Char} {fs : List (List Char)} (h : Rd t f) (g : Tail x fs)
    (row : List (List Char)) (s : List Char) :
    scan .start [] row (t ++ x ++ '\n' :: s) =
      (scan .start [] [] s).map ((row ++ f :: fs) :: ·) := by
  obtain ⟨l, rfl, rfl, hl⟩ := g
  induction l generalizing t f row with
  | nil => simpa using h.2 row s
  | cons p l ih =>
    have e : t ++ ((p :: l).map fun p => ',' :: p.1).flatten ++ '\n' :: s =
        t ++ ',' :: (p.1 ++ (l.map fun p => ',' :: p.1).flatten ++ '\n' :: s) := by simp
    rw [e, h.1, ih (hl p (by simp)) (row ++ [f]) (fun q hq => hl q (by simp [hq]))]
    simp

/-- A line without its end. -/
def Line (x : List Char) (fs : List (List Char)) : Prop :=
  ∀ s, readLines (x ++ '\n' :: s) = (readLines s).map (fs :: ·)

theorem line_of {t f x : List Char} {fs : List (List Char)} (h : Rd t f) (g : Tail x fs) :
    Line (t ++ x) (f :: fs) := fun s => by
  simpa [readLines] using scan_line h g [] s

theorem readLines_nil : readLines [] = some [] := rfl

theorem readLines_all {α : Type} (l : List α) (x : α → List Char) (fs : α → List (List Char))
    (h : ∀ a ∈ l, Line (x a) (fs a)) (s : List Char) :
    readLines ((l.map fun a => x a ++ ['\n']).flatten ++ s) =
      (readLines s).map ((l.map fs) ++ ·) := by
  induction l with
  | nil => cases h : readLines s <;> simp [h]
  | cons a l ih =>
    have e : ((a :: l).map fun a => x a ++ ['\n']).flatten ++ s =
        x a ++ '\n' :: ((l.map fun a => x a ++ ['\n']).flatten ++ s) := by simp
    rw [e, h a (by simp), ih fun b hb => h b (by simp [hb])]
    cases readLines s <;> simp

/-! ## Numbers -/

theorem digit_clean (n : Nat) (h : n < 10) : digit n ≠ ',' ∧ digit n ≠ '\n' ∧ digit n ≠ '"' := by
  have : ∀ m < 10, digit m ≠ ',' ∧ digit m ≠ '\n' ∧ digit m ≠ '"' := by decide
  exact this n h

theorem clean_append {a b : List Char} (h : Clean a) (g : Clean b) : Clean (a ++ b) := by
  intro c hc
  rcases List.mem_append.mp hc with hc | hc
  · exact h c hc
  · exact g c hc

theorem dec_clean (n : Nat) : Clean (dec n) := by
  induction n using Nat.strongRecOn with
  | ind n ih =>
    rw [dec]
    split
    · next h =>
      intro c hc
      rw [List.mem_singleton.mp hc]
      exact digit_clean n h
    · next h =>
      refine clean_append (ih _ (by omega)) ?_
      intro c hc
      rw [List.mem_singleton.mp hc]
      exact digit_clean _ (by omega)

theorem decInt_clean (v : Int) : Clean (decInt v) := by
  unfold decInt
  split
  · exact clean_append (a := ['-']) (by intro c hc; simp at hc; subst hc; decide) (dec_clean _)
  · exact dec_clean _

theorem dec6_clean (n : Nat) : Clean (dec6 n) := by
  refine clean_append ?_ (dec_clean n)
  intro c hc
  rw [List.eq_of_mem_replicate hc]
  decide

theorem rd_dec (n : Nat) : Rd (dec n) (dec n) := rd_plain (dec_clean n)

theorem rd_decInt (v : Int) : Rd (decInt v) (decInt v) := rd_plain (decInt_clean v)

theorem Clean.text {cfg : Cfg} {t : List Char} (h : Clean t) : TextOk cfg t := by
  unfold TextOk
  split
  · exact fun c hc => (h c hc).2.2
  · exact h

theorem textOk_append {cfg : Cfg} {a b : List Char} (h : TextOk cfg a) (g : TextOk cfg b) :
    TextOk cfg (a ++ b) := by
  unfold TextOk at *
  split at h
  · next hi =>
    rw [if_pos hi] at g ⊢
    intro c hc
    rcases List.mem_append.mp hc with hc | hc
    · exact h c hc
    · exact g c hc
  · next hi =>
    rw [if_neg hi] at g ⊢
    exact clean_append h g

theorem clean_lit {t : List Char}
    (h : t.all (fun c => decide (c ≠ ',') && decide (c ≠ '\n') && decide (c ≠ '"')) = true) :
    Clean t := by
  intro c hc
  have := List.all_eq_true.mp h c hc
  simp only [Bool.and_eq_true, decide_eq_true_eq] at this
  exact ⟨this.1.1, this.1.2, this.2⟩

end Verif.Csv
