import Verif.PlugAttr.CanonModel
import Verif.PlugAttr.File

/-!
# C88: continuation lines and comments
-/

namespace Verif.PlugAttr

open Verif.Av (Str)

/-! ## specification -/

/-- the text of lines, with a newline between them -/
def text : List Str → Str
  | [] => []
  | [l] => l
  | l :: l' :: ls => l ++ '\n' :: text (l' :: ls)

/-- no newline in the lines -/
def Lines (ls : List Str) : Prop := ls ≠ [] ∧ ∀ l ∈ ls, '\n' ∉ l

/-- `l` is continued by the next line: its last character but for white space is a backslash; `h` is what precedes it and
`w` what follows -/
def Continued (l h w : Str) : Prop := l = h ++ '\\' :: w ∧ ∀ c ∈ w, White c

/-- the logical lines of lines: a continued line is one with the next, with two spaces for the backslash and the newline -/
inductive Joined : List Str → List Str → Prop
  | last {l} : Joined [l] [l]
  | own {l ls js} : (¬ ∃ h w, Continued l h w) → Joined ls js → Joined (l :: ls) (l :: js)
  | cont {l h w ls j js} : Continued l h w → Joined ls (j :: js) → Joined (l :: ls) ((h ++ ' ' :: w ++ ' ' :: j) :: js)

/-- a comment: the first character but for white space is `#` -/
def Comment (l : Str) : Prop := ∃ w r, l = w ++ '#' :: r ∧ ∀ c ∈ w, White c

/-- what is left of a line: of a comment only white space, of another all -/
def Cleared (l l' : Str) : Prop := (Comment l → l'.length = l.length ∧ ∀ c ∈ l', White c) ∧ (¬ Comment l → l' = l)

/-! ## proofs -/

theorem white_bool {w : Str} (h : ∀ c ∈ w, White c) : ∀ c ∈ w, isSpace c = true := fun c hc => space_iff.2 (h c hc)

theorem drop_cases (acc : Str) : (acc.dropWhile isSpace = [] ∧ ∀ c ∈ acc, White c) ∨
    ∃ w d ds, acc = w ++ d :: ds ∧ (∀ c ∈ w, White c) ∧ ¬ White d ∧ acc.dropWhile isSpace = d :: ds ∧ acc.takeWhile isSpace = w := by
  induction acc with
  | nil => exact .inl ⟨rfl, by simp⟩
  | cons c acc ih =>
    by_cases hc : isSpace c = true
    · rw [List.dropWhile_cons_of_pos hc, List.takeWhile_cons_of_pos hc]
      rcases ih with ⟨h1, h2⟩ | ⟨w, d, ds, h1, h2, h3, h4, h5⟩
      · refine .inl ⟨h1, ?_⟩
        intro x hx
        rcases List.mem_cons.1 hx with rfl | hx
        · exact space_iff.1 hc
        · exact h2 x hx
      · refine .inr ⟨c :: w, d, ds, by rw [h1]; rfl, ?_, h3, h4, by rw [h5]⟩
        intro x hx
        rcases List.mem_cons.1 hx with rfl | hx
        · exact space_iff.1 hc
        · exact h2 x hx
    · refine .inr ⟨[], c, acc, rfl, by simp, fun h => hc (space_iff.2 h), ?_, ?_⟩
      · rw [List.dropWhile_cons_of_neg hc]
      · rw [List.takeWhile_cons_of_neg hc]

theorem split_unique {w w' : Str} {d d' : Char} {r r' : Str} (h : w ++ d :: r = w' ++ d' :: r') (hw : ∀ c ∈ w, White c)
    (hw' : ∀ c ∈ w', White c) (hd : ¬ White d) (hd' : ¬ White d') : w = w' ∧ d = d' ∧ r = r' := by
  induction w generalizing w' with
  | nil =>
    cases w' with
    | nil => simpa using h
    | cons c w' =>
      simp only [List.nil_append, List.cons_append, List.cons.injEq] at h
      exact absurd (h.1 ▸ hw' c (List.mem_cons_self ..)) hd
  | cons c w ih =>
    cases w' with
    | nil =>
      simp only [List.nil_append, List.cons_append, List.cons.injEq] at h
      exact absurd (h.1 ▸ hw c (List.mem_cons_self ..)) hd'
    | cons c' w' =>
      simp only [List.cons_append, List.cons.injEq] at h
      obtain ⟨rfl, h⟩ := h
      obtain ⟨rfl, b, c⟩ := ih h (fun x hx => hw x (List.mem_cons_of_mem _ hx)) (fun x hx => hw' x (List.mem_cons_of_mem _ hx))
      exact ⟨rfl, b, c⟩

theorem backslash_black : ¬ White '\\' := by simp [White]
theorem hash_black : ¬ White '#' := by simp [White]
theorem space_white : White ' ' := by simp [White]

theorem continued_rev {acc h w : Str} (hc : Continued acc.reverse h w) : acc.dropWhile isSpace = '\\' :: h.reverse ∧ acc.takeWhile isSpace = w.reverse := by
  have he : acc = w.reverse ++ '\\' :: h.reverse := by
    have := congrArg List.reverse hc.1
    simpa using this
  have hw : ∀ c ∈ w.reverse, White c := fun c hx => hc.2 c (by simpa using hx)
  rcases drop_cases acc with ⟨_, h2⟩ | ⟨w', d, ds, h1, h2, h3, h4, h5⟩
  · exact absurd (h2 '\\' (by rw [he]; simp)) backslash_black
  · obtain ⟨e1, e2, e3⟩ := split_unique (he.symm.trans h1) hw h2 backslash_black h3
    rw [h4, h5, e1, e2, e3]
    exact ⟨rfl, rfl⟩

theorem merge_line {first : Bool} {r : Str} : ∀ {l acc : Str}, '\n' ∉ l → merge first acc (l ++ r) = merge first (l.reverse ++ acc) r
  | [], acc, _ => rfl
  | c :: l, acc, h => by
    simp only [List.mem_cons, not_or] at h
    rw [List.cons_append, merge, if_neg (fun hh => h.1 hh.symm), merge_line h.2]
    simp

theorem joined_ne {ls js : List Str} (h : Joined ls js) : ls ≠ [] ∧ js ≠ [] := by
  cases h <;> simp

theorem text_cons {l : Str} {ls : List Str} (h : ls ≠ []) : text (l :: ls) = l ++ '\n' :: text ls := by
  cases ls with
  | nil => exact absurd rfl h
  | cons a b => rfl

theorem text_head {a j : Str} {js : List Str} : text ((a ++ j) :: js) = a ++ text (j :: js) := by
  cases js with
  | nil => rfl
  | cons b c => simp [text]

theorem merge_joined {ls js : List Str} (h : Joined ls js) : ∀ {first : Bool}, Lines ls →
    (first = true → ls.length = 1 ∨ ∃ l, ls.head? = some l ∧ ∃ c ∈ l, ¬ White c) → merge first [] (text ls) = some (text js) := by
  induction h with
  | @last l =>
    intro first hl _
    have := merge_line (first := first) (r := []) (acc := []) (hl.2 l (by simp))
    rw [List.append_nil] at this
    simp only [text]
    rw [this]
    simp [merge]
  | @own l ls js hn hj ih =>
    intro first hl hf
    have hne := joined_ne hj
    rw [text_cons hne.1, text_cons hne.2, merge_line (hl.2 l (by simp)), List.append_nil, merge, if_pos rfl]
    have ih := ih (first := false) ⟨hne.1, fun x hx => hl.2 x (List.mem_cons_of_mem _ hx)⟩ (by simp)
    rcases drop_cases l.reverse with ⟨h1, h2⟩ | ⟨w, d, ds, h1, h2, h3, h4, h5⟩
    · rw [h1]
      simp only
      have hff : first = false := by
        cases first with
        | false => rfl
        | true =>
          rcases hf rfl with h | ⟨x, hx, c, hc, hw⟩
          · simp only [List.length_cons] at h
            exact absurd (List.length_eq_zero_iff.1 (by omega)) hne.1
          · simp only [List.head?_cons, Option.some.injEq] at hx
            subst hx
            exact absurd (h2 c (by simpa using hc)) hw
      rw [if_neg (by simp [hff]), ih]
      simp
    · rw [h4]
      simp only
      have hd : d ≠ '\\' := by
        rintro rfl
        refine hn ⟨ds.reverse, w.reverse, ?_, fun c hc => h2 c (by simpa using hc)⟩
        have := congrArg List.reverse h1
        simpa using this
      rw [if_neg hd, ih]
      simp
  | @cont l h w ls j js hc hj ih =>
    intro first hl _
    have hne := joined_ne hj
    rw [text_cons hne.1, merge_line (hl.2 l (by simp)), List.append_nil, merge, if_pos rfl]
    have ih := ih (first := false) ⟨hne.1, fun x hx => hl.2 x (List.mem_cons_of_mem _ hx)⟩ (by simp)
    have hr := continued_rev (acc := l.reverse) (h := h) (w := w) (by simpa using hc)
    rw [hr.1, hr.2]
    simp only [if_pos]
    rw [ih]
    have : (h ++ ' ' :: w ++ ' ' :: j) = (h ++ ' ' :: w ++ [' ']) ++ j := by simp
    rw [this, text_head]
    simp

theorem joined_lines {ls js : List Str} (h : Joined ls js) : (∀ l ∈ ls, '\n' ∉ l) → ∀ l ∈ js, '\n' ∉ l := by
  induction h with
  | last => exact fun h => h
  | own _ _ ih =>
    intro h l hl
    rcases List.mem_cons.1 hl with rfl | hl
    · exact h _ (List.mem_cons_self ..)
    · exact ih (fun x hx => h x (List.mem_cons_of_mem _ hx)) l hl
  | @cont l h w ls j js hc _ ih =>
    intro hh x hx
    have ih := ih (fun x hx => hh x (List.mem_cons_of_mem _ hx))
    have hl := hh l (List.mem_cons_self ..)
    rw [hc.1] at hl
    rcases List.mem_cons.1 hx with rfl | hx
    · have := ih j (List.mem_cons_self ..)
      simp only [List.mem_append, List.mem_cons, not_or] at hl ⊢
      exact ⟨⟨hl.1, by decide, hl.2.2⟩, by decide, this⟩
    · exact ih x (List.mem_cons_of_mem _ hx)

theorem joined_exist : ∀ {ls : List Str}, ls ≠ [] → ∃ js, Joined ls js
  | [], h => absurd rfl h
  | [l], _ => ⟨_, .last⟩
  | l :: l' :: ls, _ => by
    obtain ⟨js, hj⟩ := joined_exist (ls := l' :: ls) (by simp)
    cases js with
    | nil => exact absurd rfl (joined_ne hj).2
    | cons j js =>
      by_cases hc : ∃ h w, Continued l h w
      · obtain ⟨h, w, hc⟩ := hc
        exact ⟨_, .cont hc hj⟩
      · exact ⟨_, .own hc hj⟩

theorem clear_text {r : Str} : ∀ {l : Str}, '\n' ∉ l → clear .text (l ++ r) = (l ++ (clear .text r).1, (clear .text r).2)
  | [], _ => rfl
  | c :: l, h => by
    simp only [List.mem_cons, not_or] at h
    rw [List.cons_append, clear, if_neg (fun hh => h.1 hh.symm), clear_text h.2]
    rfl

theorem clear_comment {r : Str} : ∀ {l : Str}, '\n' ∉ l → clear .comment (l ++ r) = (List.replicate l.length ' ' ++ (clear .comment r).1, (clear .comment r).2)
  | [], _ => by simp
  | c :: l, h => by
    simp only [List.mem_cons, not_or] at h
    rw [List.cons_append, clear, if_pos (fun hh => h.1 hh.symm), clear_comment h.2]
    simp [List.replicate_succ]

theorem clear_white {r : Str} : ∀ {l : Str}, (∀ c ∈ l, White c) → clear .start (l ++ r) = (l ++ (clear .start r).1, (clear .start r).2)
  | [], _ => rfl
  | c :: l, h => by
    rw [List.cons_append, clear, if_pos (space_iff.2 (h c (List.mem_cons_self ..))), clear_white fun x hx => h x (List.mem_cons_of_mem _ hx)]
    rfl

/-- a line at the start of a line: what is left, and in what mode the loop is then -/
theorem clear_line {l : Str} (hl : '\n' ∉ l) : ∃ l' m, Cleared l l' ∧ (m = Mode.comment ↔ Comment l) ∧
    ∀ r, clear .start (l ++ r) = (l' ++ (clear m r).1, (clear m r).2) := by
  rcases drop_cases l with ⟨_, h2⟩ | ⟨w, d, ds, h1, h2, h3, _, _⟩
  · have hn : ¬ Comment l := by
      rintro ⟨w, r, rfl, _⟩
      exact hash_black (h2 '#' (by simp))
    exact ⟨l, .start, ⟨fun h => absurd h hn, fun _ => rfl⟩, by simp [hn], fun r => clear_white h2⟩
  · subst h1
    have hds : '\n' ∉ ds := fun h => hl (by simp [h])
    by_cases hd : d = '#'
    · subst hd
      have hc : Comment (w ++ '#' :: ds) := ⟨w, ds, rfl, h2⟩
      refine ⟨w ++ ' ' :: List.replicate ds.length ' ', .comment, ⟨fun _ => ⟨by simp, ?_⟩, fun h => absurd hc h⟩, by simp [hc], fun r => ?_⟩
      · intro c hm
        rw [List.mem_append, List.mem_cons, List.mem_replicate] at hm
        rcases hm with hm | hm | hm
        · exact h2 c hm
        · rw [hm]; exact space_white
        · rw [hm.2]; exact space_white
      · rw [List.append_assoc, clear_white h2, List.cons_append, clear, if_neg (by decide), if_pos rfl, clear_comment hds]
        simp
    · have hn : ¬ Comment (w ++ d :: ds) := by
        rintro ⟨w', r, h, hw'⟩
        exact hd (split_unique h h2 hw' h3 hash_black).2.1
      refine ⟨w ++ d :: ds, .text, ⟨fun h => absurd h hn, fun _ => rfl⟩, by simp [hn], fun r => ?_⟩
      rw [List.append_assoc, clear_white h2, List.cons_append, clear, if_neg (fun h => h3 (space_iff.1 h)), if_neg hd, clear_text hds]
      simp

theorem clear_nl {m : Mode} {r : Str} : clear m ('\n' :: r) = ('\n' :: (clear .start r).1, (clear .start r).2) := by
  cases m
  · rw [clear, if_pos (by decide)]
  · rw [clear, if_neg (by simp)]
  · rw [clear, if_pos rfl]

theorem clear_lines : ∀ {js : List Str}, Lines js → ∃ ks, js.length = ks.length ∧ (∀ i : Nat, ∀ l ∈ js[i]?, ∃ k, ks[i]? = some k ∧ Cleared l k) ∧
    (clear .start (text js)).1 = text ks ∧ ((clear .start (text js)).2 = false ↔ ∃ l, js.getLast? = some l ∧ Comment l)
  | [], h => absurd rfl h.1
  | [l], h => by
    obtain ⟨l', m, h1, h2, h3⟩ := clear_line (h.2 l (by simp))
    refine ⟨[l'], rfl, ?_, ?_⟩
    · intro i x hx
      cases i with
      | zero => simp at hx; subst hx; exact ⟨l', rfl, h1⟩
      | succ i => simp at hx
    · have := h3 []
      rw [List.append_nil] at this
      simp only [text]
      rw [this]
      by_cases hc : Comment l
      · rw [h2.2 hc]
        exact ⟨by simp [clear], by simp [clear, hc]⟩
      · have hm : m ≠ .comment := fun hh => hc (h2.1 hh)
        cases m with
        | comment => exact absurd rfl hm
        | start => exact ⟨by simp [clear], by simp [clear, hc]⟩
        | text => exact ⟨by simp [clear], by simp [clear, hc]⟩
  | l :: l' :: ls, h => by
    obtain ⟨k, m, h1, _, h3⟩ := clear_line (h.2 l (by simp))
    obtain ⟨ks, e1, e2, e3, e4⟩ := clear_lines (js := l' :: ls) ⟨by simp, fun x hx => h.2 x (List.mem_cons_of_mem _ hx)⟩
    refine ⟨k :: ks, by simp [← e1], ?_, ?_⟩
    · intro i x hx
      cases i with
      | zero => simp at hx; subst hx; exact ⟨k, rfl, h1⟩
      | succ i => exact e2 i x (by simpa using hx)
    · have hks : ks ≠ [] := fun hh => by rw [hh] at e1; simp at e1
      rw [text_cons (by simp), text_cons hks, h3, clear_nl]
      simp only
      rw [e3, e4]
      exact ⟨rfl, by rw [List.getLast?_cons_cons]⟩

/-- *Continuations and comments.*  If the first line is not blank, or is the only one, reading the file gives its logical
lines, those that are comments blanked and the others as they are; the text still ends in its NUL exactly if the last line
is no comment.  Missing: a blank first line (`blank_first_defect`). -/
theorem canonical_partial {ls : List Str} (h : Lines ls) (hf : ls.length = 1 ∨ ∃ l, ls.head? = some l ∧ ∃ c ∈ l, ¬ White c) :
    ∃ js ks t, Joined ls js ∧ js.length = ks.length ∧ (∀ i : Nat, ∀ l ∈ js[i]?, ∃ k, ks[i]? = some k ∧ Cleared l k) ∧
      canonical (text ls) = some (text ks, t) ∧ (t = false ↔ ∃ l, js.getLast? = some l ∧ Comment l) := by
  obtain ⟨js, hj⟩ := joined_exist h.1
  obtain ⟨ks, e1, e2, e3, e4⟩ := clear_lines ⟨(joined_ne hj).2, joined_lines hj h.2⟩
  refine ⟨js, ks, (clear .start (text js)).2, hj, e1, e2, ?_, e4⟩
  unfold canonical
  rw [merge_joined hj h (fun _ => hf), Option.map_some, ← e3]

example : Lines ["a=b \\".toList, "c".toList, " # d".toList] ∧ canonical (text ["a=b \\".toList, "c".toList, " # d".toList, []]) =
    some (text ["a=b   c".toList, "    ".toList, []], true) := by
  refine ⟨⟨by simp, by decide⟩, by decide⟩

/-- *Defect.*  A blank first line makes it read the byte before the buffer. -/
theorem blank_first_defect (w : Str) (ls : List Str) (hw : ∀ c ∈ w, White c) (hl : '\n' ∉ w) (hne : ls ≠ []) :
    canonical (text (w :: ls)) = none := by
  unfold canonical
  rw [text_cons hne, merge_line hl, List.append_nil, merge, if_pos rfl]
  rcases drop_cases w.reverse with ⟨h, _⟩ | ⟨_, d, _, h1, _, h3, _⟩
  · rw [h]; rfl
  · exact absurd (hw d (by rw [← List.mem_reverse, h1]; simp)) h3

/-- *Defect.*  A comment on the last line, without a newline after it: the NUL after the buffer is overwritten, and the
search for the next newline runs off the buffer. -/
theorem last_comment_defect (r : Str) (hr : '\n' ∉ r) : canonical ('#' :: r) = some (List.replicate (r.length + 1) ' ', false) := by
  have h0 : '\n' ∉ '#' :: r := by simp [hr]
  have := merge_line (first := true) (r := []) (acc := []) h0
  unfold canonical
  rw [List.append_nil] at this
  rw [this]
  simp only [merge, List.append_nil, List.reverse_reverse, Option.map_some, Option.some.injEq]
  rw [clear, if_neg (by decide), if_pos rfl]
  have := clear_comment (r := []) hr
  rw [List.append_nil] at this
  rw [this]
  simp [clear, List.replicate_succ]

end Verif.PlugAttr
