import Verif.Av.Model

/-!
# C28: attribute-value lists; C48: environment variables in values
-/

namespace Verif.Av

/-! ## specification -/

/-- what separates words: a space, a tab or a newline -/
def blank (c : Char) : Bool := [' ', '\t', '\n'].contains c

/-- a word: not empty, no delimiter in it -/
def IsWord (w : Str) : Prop := w ≠ [] ∧ ∀ c ∈ w, blank c = false

/-- separators -/
def IsSep (s : Str) : Prop := ∀ c ∈ s, blank c = true

/-- `Words s ws`: the string `s` is the words `ws` with separators between them, and possibly before
and after -/
inductive Words : Str → List Str → Prop
  | nil {s : Str} : IsSep s → Words s []
  | one {a w : Str} : IsSep a → IsWord w → Words (a ++ w) [w]
  | cons {a w r : Str} {d : Char} {ws : List Str} : IsSep a → IsWord w → blank d = true → Words r ws →
    Words (a ++ w ++ d :: r) (w :: ws)

/-- the entry of a word: split at the first `=` -/
def entOf (w : Str) : Ent :=
  if '=' ∈ w then ⟨w.takeWhile (· != '='), some ((w.dropWhile (· != '=')).drop 1)⟩ else ⟨w, none⟩

/-- the keywords and the pairs among the words -/
def kws (ws : List Str) : List Ent := (ws.filter fun w => !decide ('=' ∈ w)).map entOf
def avs (ws : List Str) : List Ent := (ws.filter fun w => decide ('=' ∈ w)).map entOf

/-! ## tokenize -/

theorem splitEq_none {w : Str} (h : '=' ∉ w) : splitEq w = none := by
  induction w with
  | nil => rfl
  | cons c cs ih =>
    rw [splitEq, if_neg (fun hc => h (by rw [hc]; exact List.mem_cons_self)),
      ih (fun hc => h (List.mem_cons_of_mem _ hc))]
    rfl

theorem splitEq_some {w : Str} (h : '=' ∈ w) :
    splitEq w = some (w.takeWhile (· != '='), (w.dropWhile (· != '=')).drop 1) := by
  induction w with
  | nil => cases h
  | cons c cs ih =>
    rw [splitEq]
    by_cases hc : c = '='
    · rw [if_pos hc]; simp [hc]
    · rw [if_neg hc]
      rcases List.mem_cons.1 h with h | h
      · exact absurd h.symm hc
      · rw [ih h]
        simp [hc]

theorem isDelim_blank : isDelim = blank := by
  funext c
  simp only [isDelim, blank, List.contains_cons, List.contains_nil, Bool.or_false, Bool.or_assoc]

theorem dropWhile_sep {a s : Str} (h : IsSep a) : (a ++ s).dropWhile blank = s.dropWhile blank := by
  induction a with
  | nil => rfl
  | cons c cs ih =>
    have hc : blank c = true := h c List.mem_cons_self
    rw [List.cons_append, List.dropWhile_cons, if_pos hc]
    exact ih (fun x hx => h x (List.mem_cons_of_mem _ hx))

theorem takeWhile_word {w r : Str} (h : ∀ c ∈ w, blank c = false) (hr : ∀ c, r.head? = some c → blank c = true) :
    (w ++ r).takeWhile (fun x => !blank x) = w ∧ (w ++ r).dropWhile (fun x => !blank x) = r := by
  induction w with
  | nil =>
    cases r with
    | nil => exact ⟨rfl, rfl⟩
    | cons c cs => simp [hr c rfl]
  | cons c cs ih =>
    have hc := h c List.mem_cons_self
    have := ih (fun x hx => h x (List.mem_cons_of_mem _ hx))
    simp [hc, this]

theorem strtok_word {a w r : Str} (ha : IsSep a) (hw : IsWord w)
    (hr : ∀ c, r.head? = some c → blank c = true) : strtok (a ++ w ++ r) = some (w, r.drop 1) := by
  rw [strtok, isDelim_blank, List.append_assoc, dropWhile_sep ha]
  obtain ⟨hne, hall⟩ := hw
  cases w with
  | nil => exact absurd rfl hne
  | cons c cs =>
    have hc := hall c List.mem_cons_self
    rw [List.cons_append, List.dropWhile_cons, if_neg (by rw [hc]; simp)]
    dsimp only
    obtain ⟨h1, h2⟩ := takeWhile_word hall hr
    rw [List.cons_append] at h1 h2
    rw [h1, h2]

theorem strtok_sep {a : Str} (ha : IsSep a) : strtok a = none := by
  have := dropWhile_sep (s := []) ha
  rw [List.append_nil] at this
  rw [strtok, isDelim_blank, this]; rfl

/-- one word more -/
theorem tokLoop_word {kwSize avSize : Nat} {s t r : Str} {kw av : List Ent} (h : strtok s = some (t, r)) :
    tokLoop kwSize avSize s kw av =
      if '=' ∈ t then (if av.length ≥ avSize then none else tokLoop kwSize avSize r kw (av ++ [entOf t]))
      else (if kw.length ≥ kwSize then none else tokLoop kwSize avSize r (kw ++ [entOf t]) av) := by
  rw [tokLoop]
  split
  · rename_i h'; rw [h] at h'; cases h'
  · rename_i t' r' h'
    rw [h] at h'
    simp only [Option.some.injEq, Prod.mk.injEq] at h'
    obtain ⟨rfl, rfl⟩ := h'
    by_cases ht : '=' ∈ t
    · rw [splitEq_some ht, if_pos ht, entOf, if_pos ht]
    · rw [splitEq_none ht, if_neg ht, entOf, if_neg ht]

theorem tokLoop_spec {kwSize avSize : Nat} {s : Str} {ws : List Str} (h : Words s ws) :
    ∀ kw av : List Ent, kw.length ≤ kwSize → av.length ≤ avSize → tokLoop kwSize avSize s kw av =
      if kw.length + (kws ws).length ≤ kwSize ∧ av.length + (avs ws).length ≤ avSize
      then some (kw ++ kws ws, av ++ avs ws) else none := by
  have step : ∀ (t s r : Str) (ws : List Str), strtok s = some (t, r) →
      (∀ kw av : List Ent, kw.length ≤ kwSize → av.length ≤ avSize → tokLoop kwSize avSize r kw av =
        if kw.length + (kws ws).length ≤ kwSize ∧ av.length + (avs ws).length ≤ avSize
        then some (kw ++ kws ws, av ++ avs ws) else none) →
      ∀ kw av : List Ent, kw.length ≤ kwSize → av.length ≤ avSize → tokLoop kwSize avSize s kw av =
        if kw.length + (kws (t :: ws)).length ≤ kwSize ∧ av.length + (avs (t :: ws)).length ≤ avSize
        then some (kw ++ kws (t :: ws), av ++ avs (t :: ws)) else none := by
    intro t s r ws hs ih kw av hk ha
    rw [tokLoop_word hs]
    by_cases ht : '=' ∈ t
    · have e1 : kws (t :: ws) = kws ws := by simp [kws, ht]
      have e2 : avs (t :: ws) = entOf t :: avs ws := by simp [avs, ht]
      rw [if_pos ht, e1, e2]
      by_cases hl : av.length ≥ avSize
      · rw [if_pos hl, if_neg (by simp only [List.length_cons]; omega)]
      · rw [if_neg hl, ih _ _ hk (by simp; omega)]
        simp only [List.length_append, List.length_cons, List.length_nil, List.append_assoc,
          List.singleton_append]
        rw [show av.length + (0 + 1) + (avs ws).length = av.length + ((avs ws).length + 1) by omega]
    · have e1 : kws (t :: ws) = entOf t :: kws ws := by simp [kws, ht]
      have e2 : avs (t :: ws) = avs ws := by simp [avs, ht]
      rw [if_neg ht, e1, e2]
      by_cases hl : kw.length ≥ kwSize
      · rw [if_pos hl, if_neg (by simp only [List.length_cons]; omega)]
      · rw [if_neg hl, ih _ _ (by simp; omega) ha]
        simp only [List.length_append, List.length_cons, List.length_nil, List.append_assoc,
          List.singleton_append]
        rw [show kw.length + (0 + 1) + (kws ws).length = kw.length + ((kws ws).length + 1) by omega]
  have base : ∀ s : Str, IsSep s → ∀ kw av : List Ent, kw.length ≤ kwSize → av.length ≤ avSize →
      tokLoop kwSize avSize s kw av =
        if kw.length + (kws []).length ≤ kwSize ∧ av.length + (avs []).length ≤ avSize
        then some (kw ++ kws [], av ++ avs []) else none := by
    intro s hs kw av hk ha
    rw [tokLoop]
    split
    · rw [if_pos ⟨hk, ha⟩]; simp [kws, avs]
    · rename_i h'; rw [strtok_sep hs] at h'; cases h'
  induction h with
  | nil hs => exact base _ hs
  | @one a w ha hw =>
    have hs := strtok_word (r := []) ha hw (fun c hc => by cases hc)
    rw [List.append_nil] at hs
    exact step w _ _ _ hs (base _ (fun c hc => by cases hc))
  | @cons a w r d ws ha hw hd _ ih =>
    have hs := strtok_word (r := d :: r) ha hw (fun c hc => by cases hc; exact hd)
    exact step w _ _ _ hs ih

/-! ## the property -/

/-- *Every command string has words*, and only one list of them (by `tokenize_words`). -/
theorem words_exist : ∀ s : Str, ∃ ws, Words s ws := by
  have key : ∀ (n : Nat) (s : Str), s.length ≤ n → ∃ ws, Words s ws := by
    intro n
    induction n with
    | zero =>
      intro s hs
      exact ⟨[], .nil (by cases s with | nil => intro c hc; cases hc | cons => simp at hs)⟩
    | succ n ih =>
      intro s hs
      have e1 := List.takeWhile_append_dropWhile (p := blank) (l := s)
      have ha : IsSep (s.takeWhile blank) := fun c hc => by
        have := List.all_takeWhile (l := s) (p := blank)
        rw [List.all_eq_true] at this
        exact this c hc
      generalize hA : s.takeWhile blank = a at e1 ha
      have hh := List.head?_dropWhile_not blank s
      generalize hB : s.dropWhile blank = b at e1 hh
      cases b with
      | nil => rw [List.append_nil] at e1; exact ⟨[], e1 ▸ .nil ha⟩
      | cons c cs =>
        have hc : blank c = false := by simpa using hh
        have e2 := List.takeWhile_append_dropWhile (p := fun x => !blank x) (l := c :: cs)
        have hw : IsWord ((c :: cs).takeWhile fun x => !blank x) := by
          refine ⟨by simp [hc], fun x hx => ?_⟩
          have := List.all_takeWhile (l := c :: cs) (p := fun x => !blank x)
          rw [List.all_eq_true] at this
          simpa using this x hx
        have hh2 := List.head?_dropWhile_not (fun x => !blank x) (c :: cs)
        generalize (c :: cs).takeWhile (fun x => !blank x) = w at e2 hw
        generalize (c :: cs).dropWhile (fun x => !blank x) = r at e2 hh2
        cases r with
        | nil =>
          rw [List.append_nil] at e2
          exact ⟨[w], by rw [← e1, ← e2]; exact .one ha hw⟩
        | cons d r =>
          obtain ⟨ws, hws⟩ := ih r (by
            have := congrArg List.length e1
            have h2 := congrArg List.length e2
            simp only [List.length_append, List.length_cons] at this h2 hs
            omega)
          refine ⟨w :: ws, ?_⟩
          rw [← e1, ← e2, ← List.append_assoc]
          exact .cons ha hw (by simpa using hh2) hws
  exact fun s => key s.length s (Nat.le_refl _)

/-- *Tokenising.*  The words without `=` become keywords and the others pairs split at their first `=`,
both in the order of the command; `ENOMEM` exactly when one of the lists is too small. -/
theorem tokenize_words {kwSize avSize : Nat} {s : Str} {ws : List Str} (h : Words s ws) :
    tokenize kwSize avSize s =
      if (kws ws).length ≤ kwSize ∧ (avs ws).length ≤ avSize then some (kws ws, avs ws) else none := by
  have := tokLoop_spec (kwSize := kwSize) (avSize := avSize) h [] [] (Nat.zero_le _) (Nat.zero_le _)
  simpa [tokenize] using this

example : Words "add  name=x a=b=c\n".toList ["add".toList, "name=x".toList, "a=b=c".toList] := by
  have h1 : IsSep [] := fun c hc => by cases hc
  refine .cons (a := []) (w := "add".toList) (d := ' ') (r := " name=x a=b=c\n".toList) h1 (by simp [IsWord]; decide) rfl
    (.cons (a := [' ']) (w := "name=x".toList) (d := ' ') (r := "a=b=c\n".toList) (by simp [IsSep]; decide) (by simp [IsWord]; decide) rfl
      (.cons (a := []) (w := "a=b=c".toList) (d := '\n') (r := []) h1 (by simp [IsWord]; decide) rfl (.nil h1)))

/-- *The index* of a name: `-1` if absent, its position if it occurs once, minus the number of
occurrences if more than once. -/
theorem idx_of (l : List Ent) (name : Str) :
    avIdxOf l name =
      match (l.filter fun e => e.name = name).length with
      | 0 => -1
      | 1 => ((l.findIdx fun e => e.name = name : Nat) : Int)
      | k => -(k : Int) := by
  have key : ∀ (l : List Ent) (i k : Int), 0 ≤ i →
      idxLoop name l i k =
        match (l.filter fun e => e.name = name).length with
        | 0 => k
        | m + 1 =>
          if k = -1 then
            (match m with | 0 => i + ((l.findIdx fun e => e.name = name : Nat) : Int) | m' + 1 => -((m' + 2 : Nat) : Int))
          else if k < 0 then k - (m + 1 : Nat) else -((m + 2 : Nat) : Int) := by
    intro l
    induction l with
    | nil => intro i k _; rfl
    | cons e es ih =>
      intro i k hi
      rw [idxLoop]
      by_cases he : e.name = name
      · rw [if_neg (by simp [he]), List.filter_cons_of_pos (by simp [he]), List.length_cons]
        simp only
        by_cases hk : k = -1
        · rw [if_pos hk, if_pos hk, ih _ _ (by omega)]
          generalize (es.filter fun e => decide (e.name = name)).length = m
          cases m with
          | zero => simp [List.findIdx_cons, he]
          | succ m =>
            simp only
            rw [if_neg (by omega), if_neg (by omega)]
        · rw [if_neg hk, if_neg hk]
          by_cases hk0 : k < 0
          · rw [if_pos hk0, if_pos hk0, ih _ _ (by omega)]
            generalize (es.filter fun e => decide (e.name = name)).length = m
            cases m with
            | zero => simp
            | succ m => simp only; rw [if_neg (by omega), if_pos (by omega)]; omega
          · rw [if_neg hk0, if_neg hk0, ih _ _ (by omega)]
            generalize (es.filter fun e => decide (e.name = name)).length = m
            cases m with
            | zero => simp
            | succ m => simp only; rw [if_neg (by omega), if_pos (by omega)]; omega
      · rw [if_pos he, List.filter_cons_of_neg (by simp [he]), ih _ _ (by omega)]
        generalize (es.filter fun e => decide (e.name = name)).length = m
        cases m with
        | zero => rfl
        | succ m =>
          simp only
          split
          · cases m with
            | zero => simp [List.findIdx_cons, he]; omega
            | succ m => rfl
          · rfl
  rw [avIdxOf, key l 0 (-1) (by omega)]
  generalize (l.filter fun e => decide (e.name = name)).length = m
  match m with
  | 0 => rfl
  | 1 => simp
  | m + 2 => simp

example : avIdxOf [⟨['a'], none⟩, ⟨['b'], none⟩, ⟨['a'], none⟩, ⟨['a'], none⟩] ['a'] = -3 ∧
    avIdxOf [⟨['a'], none⟩, ⟨['b'], none⟩] ['b'] = 1 := by decide

/-- *Adding*: at the end, `ENOSPC` exactly when the list is full. -/
theorem add_spec (size : Nat) (l : List Ent) (h : l.length ≤ size) (name : Str) (v : Option Str) :
    (avAdd size l name v = none ↔ l.length = size) ∧
    ∀ l', avAdd size l name v = some l' → l' = l ++ [⟨name, v⟩] ∧ l'.length ≤ size := by
  unfold avAdd
  constructor
  · split <;> simp_all
  · intro l' hl
    split at hl
    · cases hl
    · cases hl; exact ⟨rfl, by simp; omega⟩

/-! ## environment variables -/

theorem refAt_spec {s n r : Str} (h : refAt s = some (n, r)) :
    s = '$' :: '{' :: n ++ '}' :: r ∧ n ≠ [] ∧ ∀ c ∈ n, isName c = true := by
  unfold refAt at h
  split at h
  · rename_i t
    split at h
    · rename_i m ms r' h1 h2
      simp only [Option.some.injEq, Prod.mk.injEq] at h
      obtain ⟨rfl, rfl⟩ := h
      have e := List.takeWhile_append_dropWhile (p := isName) (l := t)
      rw [h1, h2] at e
      refine ⟨by rw [← e]; rfl, by simp, ?_⟩
      have := List.all_takeWhile (l := t) (p := isName)
      rw [h1, List.all_eq_true] at this
      exact this
    · cases h
  · cases h

theorem refAt_complete {n r : Str} (hn : n ≠ []) (hc : ∀ c ∈ n, isName c = true) :
    refAt ('$' :: '{' :: n ++ '}' :: r) = some (n, r) := by
  have h1 : (n ++ '}' :: r).takeWhile isName = n ∧ (n ++ '}' :: r).dropWhile isName = '}' :: r := by
    clear hn
    induction n with
    | nil => exact ⟨rfl, rfl⟩
    | cons c cs ih =>
      have := hc c List.mem_cons_self
      have ih := ih (fun x hx => hc x (List.mem_cons_of_mem _ hx))
      simp [this, ih]
  show (match (n ++ '}' :: r).takeWhile isName, (n ++ '}' :: r).dropWhile isName with
    | n :: ns, '}' :: r => some (n :: ns, r)
    | _, _ => none) = _
  rw [h1.1, h1.2]
  cases n with
  | nil => exact absurd rfl hn
  | cons c cs => rfl

/-- Specification: `Expand env s k t`: replacing the `k` variable references in `s`, from left to right,
by their values (nothing for a variable that is not set) gives `t`.  Names are shorter than 100. -/
inductive Expand (env : Str → Option Str) : Str → Nat → Str → Prop
  | nil : Expand env [] 0 []
  | var {n r t : Str} {k : Nat} : n ≠ [] → (∀ c ∈ n, isName c = true) → n.length < 100 →
    Expand env r k t → Expand env ('$' :: '{' :: n ++ '}' :: r) (k + 1) ((env n).getD [] ++ t)
  | char {c : Char} {cs t : Str} {k : Nat} :
    (¬ ∃ n r, c :: cs = '$' :: '{' :: n ++ '}' :: r ∧ n ≠ [] ∧ ∀ x ∈ n, isName x = true) →
    Expand env cs k t → Expand env (c :: cs) k (c :: t)

theorem refAt_none {s : Str} (h : refAt s = none) :
    ¬ ∃ n r, s = '$' :: '{' :: n ++ '}' :: r ∧ n ≠ [] ∧ ∀ x ∈ n, isName x = true := by
  rintro ⟨n, r, rfl, hn, hc⟩
  rw [refAt_complete hn hc] at h
  cases h

/-- the text before the first reference is copied -/
theorem expand_find {env : Str → Option Str} : ∀ {s : Str} {a b : Nat} {n : Str},
    findMatch s = some (a, b, n) → n ≠ [] ∧ (∀ c ∈ n, isName c = true) ∧ b = a + (n.length + 3) ∧ b ≤ s.length ∧
      ∀ k t, n.length < 100 → Expand env (s.drop b) k t →
        Expand env s (k + 1) (s.take a ++ ((env n).getD [] ++ t)) := by
  intro s
  induction s with
  | nil => intro a b n h; cases h
  | cons c cs ih =>
    intro a b n h
    rw [findMatch] at h
    split at h
    · rename_i m r hr
      simp only [Option.some.injEq, Prod.mk.injEq] at h
      obtain ⟨rfl, rfl, rfl⟩ := h
      obtain ⟨h1, h2, h3⟩ := refAt_spec hr
      refine ⟨h2, h3, by omega, ?_, ?_⟩
      · rw [h1]; simp
      · intro k t hl he
        rw [List.take_zero, List.nil_append, h1]
        refine .var h2 h3 hl ?_
        rw [h1] at he
        have : (('$' :: '{' :: m ++ '}' :: r).drop (m.length + 3)) = r := by
          show (m ++ '}' :: r).drop (m.length + 1) = r
          rw [List.drop_append]; simp
        rw [this] at he
        exact he
    · rename_i hr
      cases hf : findMatch cs with
      | none => rw [hf] at h; cases h
      | some p =>
        obtain ⟨a', b', n'⟩ := p
        rw [hf] at h
        simp only [Option.map_some, Option.some.injEq, Prod.mk.injEq] at h
        obtain ⟨rfl, rfl, rfl⟩ := h
        obtain ⟨h1, h2, h3, h4, h5⟩ := ih hf
        refine ⟨h1, h2, by omega, by simpa using h4, ?_⟩
        intro k t hl he
        exact .char (refAt_none hr) (h5 k t hl he)

theorem expand_nofind {env : Str → Option Str} : ∀ {s : Str}, findMatch s = none → Expand env s 0 s := by
  intro s
  induction s with
  | nil => intro _; exact .nil
  | cons c cs ih =>
    intro h
    rw [findMatch] at h
    split at h
    · cases h
    · rename_i hr
      cases hf : findMatch cs with
      | none => exact .char (refAt_none hr) (ih hf)
      | some p => rw [hf] at h; cases h

/-- the result is determined -/
theorem Expand.unique {env : Str → Option Str} {s : Str} {k k' : Nat} {t t' : Str} (h : Expand env s k t)
    (h' : Expand env s k' t') : k = k' ∧ t = t' := by
  induction h generalizing k' t' with
  | nil => cases h'; exact ⟨rfl, rfl⟩
  | @var n r t k hn hc hl _ ih =>
    generalize hs : '$' :: '{' :: n ++ '}' :: r = s at h'
    cases h' with
    | nil => cases hs
    | @var n2 r2 t2 k2 hn2 hc2 hl2 h2 =>
      have := congrArg refAt hs
      rw [refAt_complete hn hc, refAt_complete hn2 hc2] at this
      simp only [Option.some.injEq, Prod.mk.injEq] at this
      obtain ⟨rfl, rfl⟩ := this
      obtain ⟨rfl, rfl⟩ := ih h2
      exact ⟨rfl, rfl⟩
    | char hno _ => exact absurd ⟨n, r, hs.symm, hn, hc⟩ hno
  | @char c cs t k hno _ ih =>
    generalize hs : c :: cs = s at h'
    cases h' with
    | nil => cases hs
    | @var n2 r2 t2 k2 hn2 hc2 hl2 h2 => exact absurd ⟨n2, r2, hs, hn2, hc2⟩ hno
    | char hno2 h2 =>
      cases hs
      obtain ⟨rfl, rfl⟩ := ih h2
      exact ⟨rfl, rfl⟩

theorem scan_spec (env : Str → Option Str) (str : Str) : ∀ (d i pos : Nat), 100 - i = d → pos ≤ str.length →
    ∀ ms, scan env str pos i = some ms →
      ∃ t, Expand env (str.drop pos) ms.length t ∧ (∀ acc, assemble str ms pos acc = acc ++ t) ∧
        i + ms.length < 100 ∧
        (ms.map fun m => m.name.length + 3).sum ≤ (str.drop pos).length ∧
        t.length = (str.drop pos).length - (ms.map fun m => m.name.length + 3).sum +
          (ms.map fun m => m.val.length).sum := by
  intro d
  induction d with
  | zero =>
    intro i pos hd _ ms h
    rw [scan, if_pos (by omega)] at h
    cases h
  | succ d ih =>
    intro i pos hd hp ms h
    rw [scan, if_neg (by omega)] at h
    split at h
    · rename_i hf
      cases h
      exact ⟨str.drop pos, expand_nofind hf, fun acc => rfl, by simp; omega, by simp, by simp⟩
    · rename_i a b n hf
      obtain ⟨h1, h2, h3, h4, h5⟩ := expand_find (env := env) hf
      have hl4 : pos + b ≤ str.length := by
        rw [List.length_drop] at h4; omega
      split at h
      · cases h
      · rename_i hnl
        cases hs : scan env str (pos + b) (i + 1) with
        | none => rw [hs] at h; cases h
        | some l =>
          rw [hs] at h
          simp only [Option.map_some, Option.some.injEq] at h
          subst h
          obtain ⟨t, q1, q2, q3, q4, q5⟩ := ih (i + 1) (pos + b) (by omega) hl4 l hs
          have hdd : (str.drop pos).drop b = str.drop (pos + b) := by rw [List.drop_drop]
          refine ⟨(str.drop pos).take a ++ ((env n).getD [] ++ t), ?_, ?_, ?_, ?_, ?_⟩
          · exact h5 _ _ (by omega) (by rw [hdd]; exact q1)
          · intro acc
            rw [assemble, q2]
            simp only [Nat.add_sub_cancel_left, List.append_assoc]
          · simp only [List.length_cons]; omega
          · simp only [List.map_cons, List.sum_cons, List.length_drop] at *; omega
          · simp only [List.map_cons, List.sum_cons, List.length_append, List.length_take] at *
            rw [q5]
            simp only [List.length_drop] at *
            omega

theorem Expand.find {env : Str → Option Str} {s t : Str} {k : Nat} (h : Expand env s k t) :
    (findMatch s = none ∧ k = 0) ∨ ∃ a b n k' t', findMatch s = some (a, b, n) ∧ k = k' + 1 ∧
      n.length < 100 ∧ Expand env (s.drop b) k' t' := by
  induction h with
  | nil => exact Or.inl ⟨rfl, rfl⟩
  | @var n r t k hn hc hl he _ =>
    right
    refine ⟨0, n.length + 3, n, k, t, ?_, rfl, hl, ?_⟩
    · show findMatch ('$' :: ('{' :: n ++ '}' :: r)) = _
      rw [findMatch]
      have := refAt_complete (r := r) hn hc
      rw [show '$' :: ('{' :: n ++ '}' :: r) = '$' :: '{' :: n ++ '}' :: r from rfl, this]
    · have : (('$' :: '{' :: n ++ '}' :: r).drop (n.length + 3)) = r := by
        show (n ++ '}' :: r).drop (n.length + 1) = r
        rw [List.drop_append]; simp
      rw [this]; exact he
  | @char c cs t k hno _ ih =>
    have hr : refAt (c :: cs) = none := by
      cases hr : refAt (c :: cs) with
      | none => rfl
      | some p =>
        obtain ⟨n, r⟩ := p
        obtain ⟨q1, q2, q3⟩ := refAt_spec hr
        exact absurd ⟨n, r, q1, q2, q3⟩ hno
    rcases ih with ⟨h1, h2⟩ | ⟨a, b, n, k', t', h1, h2, h3, h4⟩
    · left
      rw [findMatch, hr, h1]
      exact ⟨rfl, h2⟩
    · right
      refine ⟨a + 1, b + 1, n, k', t', ?_, h2, h3, h4⟩
      rw [findMatch, hr, h1]
      rfl

theorem scan_ok (env : Str → Option Str) (str : Str) : ∀ (k i pos : Nat) (t : Str),
    Expand env (str.drop pos) k t → i + k < 100 → ∃ ms, scan env str pos i = some ms := by
  intro k
  induction k with
  | zero =>
    intro i pos t he hi
    rw [scan, if_neg (by omega)]
    rcases he.find with ⟨h1, _⟩ | ⟨_, _, _, _, _, _, h2, _, _⟩
    · rw [h1]; exact ⟨_, rfl⟩
    · omega
  | succ k ih =>
    intro i pos t he hi
    rw [scan, if_neg (by omega)]
    rcases he.find with ⟨_, h1⟩ | ⟨a, b, n, k', t', h1, h2, h3, h4⟩
    · omega
    · rw [h1]
      dsimp only
      rw [if_neg (by omega)]
      cases h2
      rw [List.drop_drop] at h4
      obtain ⟨ms, hms⟩ := ih (i + 1) (pos + b) t' h4 (by omega)
      rw [hms]
      exact ⟨_, rfl⟩

/-- *Variables are replaced*: `${name}` by the value of the variable, or nothing if it is not set; from
left to right, values are not expanded again, everything else is copied.  This holds for every string
with fewer than 100 references, all with names shorter than 100 characters; in particular the buffer
allocated for the result has exactly the size needed. -/
theorem env_expand_partial (env : Str → Option Str) {s t : Str} {k : Nat} (h : Expand env s k t) (hk : k < 100) :
    strReplEnvVars env s = some t := by
  obtain ⟨ms, hms⟩ := scan_ok env s k 0 0 t h (by omega)
  obtain ⟨t', q1, q2, q3, q4, q5⟩ := scan_spec env s 100 0 0 rfl (Nat.zero_le _) ms hms
  rw [List.drop_zero] at q1 q4 q5
  obtain ⟨rfl, rfl⟩ := q1.unique h
  rw [strReplEnvVars, hms]
  cases ms with
  | nil =>
    dsimp only
    have := q2 []
    rw [assemble] at this
    simp only [List.nil_append, List.drop_zero] at this
    rw [this]
  | cons m ms =>
    dsimp only
    rw [q2 [], List.nil_append, if_pos]
    rw [q5]
    exact ⟨Nat.le_refl _, rfl⟩

example : Expand (fun n => if n = "HOME".toList then some "/root".toList else none)
    "a${HOME}$x${Y}{".toList 2 "a/root$x{".toList := by
  refine .char ?_ (.var (n := "HOME".toList) (r := "$x${Y}{".toList) (t := "$x{".toList) (by decide) (by decide) (by decide)
    (.char ?_ (.char ?_ (.var (n := "Y".toList) (r := ['{']) (t := ['{']) (by decide) (by decide) (by decide)
      (.char ?_ .nil)))))
  all_goals exact refAt_none (by decide)

/-- and it is never anything else: when the function returns, the result is the expansion -/
theorem env_result (env : Str → Option Str) {s t : Str} (h : strReplEnvVars env s = some t) :
    ∃ k, k < 100 ∧ Expand env s k t := by
  rw [strReplEnvVars] at h
  cases hms : scan env s 0 0 with
  | none => rw [hms] at h; cases h
  | some ms =>
    obtain ⟨t', q1, q2, q3, q4, q5⟩ := scan_spec env s 100 0 0 rfl (Nat.zero_le _) ms hms
    rw [List.drop_zero] at q1
    refine ⟨ms.length, by omega, ?_⟩
    have e : t = t' := by
      rw [hms] at h
      cases ms with
      | nil =>
        dsimp only at h
        have := q2 []
        rw [assemble] at this
        simp only [List.nil_append, List.drop_zero] at this
        cases h; exact this
      | cons m ms =>
        dsimp only at h
        rw [q2 [], List.nil_append] at h
        split at h
        · cases h; rfl
        · cases h
    rw [e]; exact q1

/-- *Defect.*  A value with 100 references or more makes the function write outside its arrays. -/
theorem env_overflow_defect (env : Str → Option Str) {s t : Str} {k : Nat} (h : Expand env s k t)
    (hk : 100 ≤ k) : strReplEnvVars env s = none := by
  cases hr : strReplEnvVars env s with
  | none => rfl
  | some t' =>
    obtain ⟨k', h1, h2⟩ := env_result env hr
    have := (h.unique h2).1
    omega

/-- `${A}` repeated -/
def manyRefs : Nat → Str
  | 0 => []
  | k + 1 => '$' :: '{' :: ['A'] ++ '}' :: manyRefs k

theorem manyRefs_expand (k : Nat) : Expand (fun _ => none) (manyRefs k) k [] := by
  induction k with
  | zero => exact .nil
  | succ k ih => exact .var (n := ['A']) (t := []) (by decide) (by decide) (by decide) ih

/-- the 100 references that overflow exist -/
example : strReplEnvVars (fun _ => none) (manyRefs 100) = none :=
  env_overflow_defect _ (manyRefs_expand 100) (Nat.le_refl _)

/-- *First match wins*: the value of a name is the expansion of the value of the first pair with that
name, and NULL iff no pair has the name or the first one has no value. -/
theorem value_first (env : Str → Option Str) (l : List Ent) (name : Str) :
    avValue env l name =
      match l.find? (fun e => e.name = name) with
      | none => some none
      | some e =>
        match e.value with
        | none => some none
        | some v => (strReplEnvVars env v).map some := by
  induction l with
  | nil => rfl
  | cons e es ih =>
    rw [avValue]
    by_cases he : e.name = name
    · rw [if_neg (by simp [he]), List.find?_cons_of_pos (by simp [he])]
      rfl
    · rw [if_pos he, List.find?_cons_of_neg (by simp [he]), ih]

/-! ## printing and reading back -/

/-- an entry that can be printed and read back -/
def Clean (e : Ent) : Prop :=
  IsWord (e.name ++ match e.value with | none => [] | some v => '=' :: v) ∧ '=' ∉ e.name

/-- the word of an entry -/
def wordOf (e : Ent) : Str := e.name ++ match e.value with | none => [] | some v => '=' :: v

theorem entOf_wordOf {e : Ent} (h : '=' ∉ e.name) : entOf (wordOf e) = e := by
  obtain ⟨n, v⟩ := e
  cases v with
  | none =>
    have : '=' ∉ wordOf ⟨n, none⟩ := by simpa [wordOf] using h
    rw [entOf, if_neg this]
    simp [wordOf]
  | some v =>
    have hm : '=' ∈ wordOf ⟨n, some v⟩ := by simp [wordOf]
    rw [entOf, if_pos hm]
    have key : ∀ n : Str, '=' ∉ n → (n ++ '=' :: v).takeWhile (· != '=') = n ∧
        (n ++ '=' :: v).dropWhile (· != '=') = '=' :: v := by
      intro n
      induction n with
      | nil => intro _; simp
      | cons c cs ih =>
        intro hn
        have hc : c ≠ '=' := fun hc => hn (by rw [hc]; exact List.mem_cons_self)
        have := ih (fun hx => hn (List.mem_cons_of_mem _ hx))
        simp [hc, this]
    obtain ⟨k1, k2⟩ := key n h
    simp only [wordOf]
    rw [k1, k2]
    rfl

theorem mem_wordOf {e : Ent} (h : '=' ∉ e.name) : '=' ∈ wordOf e ↔ e.value.isSome = true := by
  obtain ⟨n, v⟩ := e
  cases v with
  | none => simpa [wordOf] using h
  | some v => simp [wordOf]

/-- *Round trip*: printing a list and tokenising the text gives its entries back, those without a value
as keywords and the others as pairs, in order. -/
theorem to_string_tokenize (l : List Ent) (hl : l ≠ []) (hc : ∀ e ∈ l, Clean e) :
    tokenize l.length l.length (avToString l) =
      some (l.filter (fun e => e.value.isNone), l.filter (fun e => e.value.isSome)) := by
  have hw : Words (avToString l) (l.map wordOf) := by
    have e1 : avToString l = (l.map fun e => wordOf e ++ [' ']).flatten := by
      rw [avToString, if_neg (by cases l with | nil => exact absurd rfl hl | cons => simp)]
      rfl
    rw [e1]
    clear e1 hl
    induction l with
    | nil => exact .nil (fun c hc => by cases hc)
    | cons e es ih =>
      have := Words.cons (a := []) (d := ' ') (fun c hc => by cases hc) (hc e List.mem_cons_self).1 rfl
        (ih (fun x hx => hc x (List.mem_cons_of_mem _ hx)))
      simpa [wordOf] using this
  rw [tokenize_words hw]
  have hk : kws (l.map wordOf) = l.filter (fun e => e.value.isNone) ∧
      avs (l.map wordOf) = l.filter (fun e => e.value.isSome) := by
    clear hw hl
    induction l with
    | nil => exact ⟨rfl, rfl⟩
    | cons e es ih =>
      obtain ⟨i1, i2⟩ := ih (fun x hx => hc x (List.mem_cons_of_mem _ hx))
      have hne := (hc e List.mem_cons_self).2
      unfold kws avs at *
      rw [List.map_cons]
      cases hv : e.value with
      | none =>
        have hm : '=' ∉ wordOf e := by rw [mem_wordOf hne, hv]; simp
        simp only [List.filter_cons, hm, hv, decide_false, decide_true, Bool.not_false, Bool.not_true,
          Option.isNone_none, Option.isSome_none, Option.isNone_some, Option.isSome_some, if_true,
          Bool.false_eq_true, if_false, List.map_cons, entOf_wordOf hne, i1, i2]
        exact ⟨trivial, trivial⟩
      | some v =>
        have hm : '=' ∈ wordOf e := by rw [mem_wordOf hne, hv]; simp
        simp only [List.filter_cons, hm, hv, decide_false, decide_true, Bool.not_false, Bool.not_true,
          Option.isNone_none, Option.isSome_none, Option.isNone_some, Option.isSome_some, if_true,
          Bool.false_eq_true, if_false, List.map_cons, entOf_wordOf hne, i1, i2]
        exact ⟨trivial, trivial⟩
  rw [hk.1, hk.2, if_pos ⟨List.length_filter_le _ _, List.length_filter_le _ _⟩]

example : Clean ⟨"a".toList, some "x=y".toList⟩ ∧ Clean ⟨"add".toList, none⟩ := by
  simp [Clean, IsWord]; decide

/-- *Defect.*  The empty list is printed as a word. -/
theorem to_string_empty_defect :
    tokenize 1 1 (avToString []) = some ([⟨"(empty)".toList, none⟩], []) := by
  have h : Words (avToString []) ["(empty)".toList] := by
    have := Words.one (a := []) (w := "(empty)".toList) (fun c hc => by cases hc) (by simp [IsWord]; decide)
    exact this
  rw [tokenize_words h]
  decide

end Verif.Av
