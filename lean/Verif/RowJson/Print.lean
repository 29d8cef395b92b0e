import Verif.RowJson.Spec

/-! # Proofs about the growing buffer -/

namespace Verif.RowJson

theorem roundUp_ge (n : Nat) : n ≤ roundUp n := by
  unfold roundUp bufsiz; omega

theorem roundUp_gt {n : Nat} (h : n % 8192 ≠ 0) : n < roundUp n := by
  unfold roundUp bufsiz; omega

theorem roundUp_eq {n : Nat} (h : n % 8192 = 0) : roundUp n = n := by
  unfold roundUp bufsiz; omega

theorem printIn_cons (f : Nat) (b : Buf) (h : List Buf) (p : List Char) :
    printIn (f + 1) (b :: h) p = if p.length ≥ b.cap - b.data.length then
      printIn f (⟨[], roundUp p.length⟩ :: b :: h) p
    else some (⟨b.data ++ p, b.cap⟩ :: h) := rfl

theorem printIn_mono {f : Nat} : ∀ {h : List Buf} {p : List Char} {h' : List Buf},
    printIn f h p = some h' → printIn (f + 1) h p = some h' := by
  induction f with
  | zero => intro h p h' hh; cases hh
  | succ f ih =>
    intro h p h' hh
    cases h with
    | nil => exact ih hh
    | cons b h =>
      rw [printIn_cons] at hh ⊢
      split at hh
      · rw [if_pos (by assumption)]; exact ih hh
      · rw [if_neg (by assumption)]; exact hh

/-- A piece that does not fit and is as long as its own buffer never gets printed. -/
theorem printIn_never {p : List Char} (hp : p.length % 8192 = 0) :
    ∀ (f : Nat) (b : Buf) (h : List Buf), b.cap - b.data.length ≤ p.length →
    printIn f (b :: h) p = none := by
  intro f
  induction f with
  | zero => intros; rfl
  | succ f ih =>
    intro b h hb
    rw [printIn_cons, if_pos hb]
    refine ih _ _ ?_
    show roundUp p.length - 0 ≤ p.length
    rw [roundUp_eq hp]
    omega

/-- Three rounds are enough. -/
theorem printf_none {h : List Buf} {p : List Char} (hn : printf h p = none) (f : Nat) :
    printIn f h p = none := by
  have key : ∀ (b : Buf) (h : List Buf), printIn 2 (b :: h) p = none →
      ∀ f, printIn f (b :: h) p = none := by
    intro b h hn f
    rw [printIn_cons] at hn
    split at hn
    · rename_i hb
      rw [printIn_cons] at hn
      split at hn
      · rename_i hb2
        have hm : p.length % 8192 = 0 := by
          apply Decidable.byContradiction
          intro hc
          have := roundUp_gt hc
          simp only [List.length_nil] at hb2
          omega
        exact printIn_never hm f b h hb
      · cases hn
    · cases hn
  cases h with
  | nil =>
    cases f with
    | zero => rfl
    | succ f => exact key _ _ hn f
  | cons b h =>
    refine key b h ?_ f
    cases hx : printIn 2 (b :: h) p with
    | none => rfl
    | some h' =>
      have := printIn_mono hx
      rw [printf] at hn
      rw [hn] at this
      cases this

theorem strbufStr_cons (b : Buf) (h : List Buf) : strbufStr (b :: h) = strbufStr h ++ b.data := by
  simp [strbufStr]

/-- What is printed comes after what there is. -/
theorem printIn_text {f : Nat} : ∀ {h : List Buf} {p : List Char} {h' : List Buf},
    printIn f h p = some h' → strbufStr h' = strbufStr h ++ p := by
  induction f with
  | zero => intro h p h' hh; cases hh
  | succ f ih =>
    intro h p h' hh
    cases h with
    | nil =>
      have := ih (h := [⟨[], roundUp bufsiz⟩]) hh
      rw [this, strbufStr_cons, List.append_nil]
    | cons b h =>
      rw [printIn_cons] at hh
      split at hh
      · rw [ih hh, strbufStr_cons (⟨[], _⟩ : Buf), List.append_nil]
      · cases hh
        rw [strbufStr_cons, strbufStr_cons, List.append_assoc]

/-- Every buffer has room for what is in it and the NUL. -/
theorem printIn_sound {f : Nat} : ∀ {h : List Buf} {p : List Char} {h' : List Buf},
    (∀ b ∈ h, b.data.length < b.cap ∨ b.data = []) → printIn f h p = some h' →
    ∀ b ∈ h', b.data.length < b.cap ∨ b.data = [] := by
  induction f with
  | zero => intro h p h' _ hh; cases hh
  | succ f ih =>
    intro h p h' hs hh
    cases h with
    | nil => exact ih (h := [⟨[], roundUp bufsiz⟩]) (by simp) hh
    | cons b h =>
      rw [printIn_cons] at hh
      split at hh
      · refine ih ?_ hh
        intro c hc
        rcases List.mem_cons.mp hc with rfl | hc
        · exact .inr rfl
        · exact hs c hc
      · rename_i hlt
        cases hh
        intro c hc
        rcases List.mem_cons.mp hc with rfl | hc
        · left
          simp only [List.length_append]
          omega
        · exact hs c (List.mem_cons_of_mem _ hc)

/-- A piece of a length that is no multiple of 8192 gets printed. -/
theorem printf_good (h : List Buf) {p : List Char} (hp : GoodLen p.length) :
    ∃ h', printf h p = some h' := by
  have key : ∀ (b : Buf) (h : List Buf), ∃ h', printIn 2 (b :: h) p = some h' := by
    intro b h
    rw [printIn_cons]
    split
    · rw [printIn_cons, if_neg]
      · exact ⟨_, rfl⟩
      · have := roundUp_gt hp
        simp only [List.length_nil]
        omega
    · exact ⟨_, rfl⟩
  cases h with
  | nil => exact key _ _
  | cons b h =>
    obtain ⟨h', hh⟩ := key b h
    exact ⟨h', printIn_mono hh⟩

/-- Pieces of good lengths get printed one after the other. -/
theorem printAll_good : ∀ (l : List (List Char)) (h : List Buf), (∀ p ∈ l, GoodLen p.length) →
    printAll h (l.map some) = .ok (strbufStr h ++ l.flatten)
  | [], h, _ => by simp [printAll]
  | p :: l, h, hg => by
    obtain ⟨h', hh⟩ := printf_good h (hg p (by simp))
    rw [List.map_cons, printAll, hh]
    simp only
    rw [printAll_good l h' fun q hq => hg q (List.mem_cons_of_mem _ hq), printIn_text hh]
    simp

/-- Whatever is printed is the concatenation of the pieces. -/
theorem printAll_ok : ∀ (l : List (Option (List Char))) (h : List Buf) {t : List Char},
    printAll h l = .ok t → ∃ ps : List (List Char), l = ps.map some ∧ t = strbufStr h ++ ps.flatten
  | [], h, t, hh => by
    simp only [printAll, Out.ok.injEq] at hh
    exact ⟨[], rfl, by simp [hh]⟩
  | none :: l, h, t, hh => by cases hh
  | some p :: l, h, t, hh => by
    rw [printAll] at hh
    cases hp : printf h p with
    | none => rw [hp] at hh; cases hh
    | some h' =>
      rw [hp] at hh
      obtain ⟨ps, rfl, rfl⟩ := printAll_ok l h' hh
      exact ⟨p :: ps, rfl, by rw [printIn_text hp]; simp⟩

end Verif.RowJson
