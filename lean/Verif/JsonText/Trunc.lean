import Verif.JsonText.Dump

/-!
# Texts cut short
-/

namespace Verif.JsonText

open Verif.RowJson (JVal Plain)

variable {fmt : Text → Text}

/-! ## Brackets -/

def Tok.bal : Tok → Int
  | .lb => 1
  | .lc => 1
  | .rb => -1
  | .rc => -1
  | _ => 0

def bal (l : List Tok) : Int := (l.map Tok.bal).sum

@[simp] theorem bal_nil : bal [] = 0 := rfl

@[simp] theorem bal_cons (t : Tok) (l : List Tok) : bal (t :: l) = t.bal + bal l := by simp [bal]

@[simp] theorem bal_append (a b : List Tok) : bal (a ++ b) = bal a + bal b := by simp [bal]

/-- At no place in the tokens are more brackets closed than opened and `k` more. -/
def Low (k : Int) (l : List Tok) : Prop := ∀ a b, l = a ++ b → -k ≤ bal a

theorem Low.nil {k : Int} (h : 0 ≤ k) : Low k [] := by
  intro a b hab
  cases a with
  | nil => simp only [bal_nil]; omega
  | cons x a => cases hab

theorem Low.cons {k k' : Int} {t : Tok} {l : List Tok} (h : Low k l) (h0 : 0 ≤ k')
    (hk : k ≤ k' + t.bal) : Low k' (t :: l) := by
  intro a b hab
  cases a with
  | nil => simp only [bal_nil]; omega
  | cons x a =>
    simp only [List.cons_append, List.cons.injEq] at hab
    obtain ⟨rfl, hab⟩ := hab
    have := h a b hab
    simp only [bal_cons]; omega

theorem Low.append {k : Int} {l l' : List Tok} (h : Low k l) (h' : Low k l') (hb : bal l = 0) :
    Low k (l ++ l') := by
  intro a b hab
  rcases List.append_eq_append_iff.mp hab with ⟨c, rfl, hc⟩ | ⟨c, rfl, hc⟩
  · have := h' c b hc
    simp only [bal_append]; omega
  · exact h a c rfl

theorem Low.mono {k k' : Int} {l : List Tok} (h : Low k l) (hk : k ≤ k') : Low k' l := by
  intro a b hab
  have := h a b hab
  omega

/-- What the parser takes has as many brackets opened as closed. -/
theorem taken : ∀ (n : Nat),
    (∀ toks e r, pvalue n toks = some (e, r) → ∃ c, toks = c ++ r ∧ bal c = 0 ∧ Low 0 c ∧ c ≠ []) ∧
    (∀ acc toks e r, pitem n acc toks = some (e, r) → ∃ c, toks = c ++ r ∧ bal c = -1 ∧ Low 1 c) ∧
    (∀ acc toks e r, pitems n acc toks = some (e, r) → ∃ c, toks = c ++ r ∧ bal c = -1 ∧ Low 1 c) ∧
    (∀ acc toks e r, pattr n acc toks = some (e, r) → ∃ c, toks = c ++ r ∧ bal c = -1 ∧ Low 1 c) ∧
    (∀ acc toks e r, pattrs n acc toks = some (e, r) → ∃ c, toks = c ++ r ∧ bal c = -1 ∧ Low 1 c) := by
  intro n
  induction n with
  | zero =>
    refine ⟨?_, ?_, ?_, ?_, ?_⟩
    · intro toks e r h; rw [pvalue] at h; cases h
    · intro acc toks e r h; rw [pitem] at h; cases h
    · intro acc toks e r h; rw [pitems] at h; cases h
    · intro acc toks e r h; simp [pattr] at h
    · intro acc toks e r h; rw [pattrs] at h; cases h
  | succ n ih =>
    obtain ⟨i1, i2, i3, i4, i5⟩ := ih
    have scalar : ∀ {t : Tok} {r : List Tok}, t.bal = 0 →
        ∃ c, t :: r = c ++ r ∧ bal c = 0 ∧ Low 0 c ∧ c ≠ [] := by
      intro t r ht
      exact ⟨[t], rfl, by simp [ht], (Low.nil (Int.le_refl 0)).cons (Int.le_refl 0) (by omega), by simp⟩
    have openB : ∀ {t : Tok} {toks r : List Tok}, t.bal = 1 →
        (∃ c, toks = c ++ r ∧ bal c = -1 ∧ Low 1 c) →
        ∃ c, t :: toks = c ++ r ∧ bal c = 0 ∧ Low 0 c ∧ c ≠ [] := by
      rintro t toks r ht ⟨c, rfl, h1, h2⟩
      exact ⟨t :: c, rfl, by simp [ht, h1], h2.cons (by omega) (by omega), by simp⟩
    have close : ∀ {t : Tok} {r : List Tok}, t.bal = -1 →
        ∃ c, t :: r = c ++ r ∧ bal c = -1 ∧ Low 1 c := by
      intro t r ht
      exact ⟨[t], rfl, by simp [ht], (Low.nil (Int.le_refl 0)).cons (by omega) (by omega)⟩
    have mid : ∀ {t : Tok} {toks r : List Tok}, t.bal = 0 →
        (∃ c, toks = c ++ r ∧ bal c = -1 ∧ Low 1 c) →
        ∃ c, t :: toks = c ++ r ∧ bal c = -1 ∧ Low 1 c := by
      rintro t toks r ht ⟨c, rfl, h1, h2⟩
      exact ⟨t :: c, rfl, by simp [ht, h1], h2.cons (by omega) (by omega)⟩
    have seq : ∀ {toks r r' : List Tok}, (∃ c, toks = c ++ r' ∧ bal c = 0 ∧ Low 0 c ∧ c ≠ []) →
        (∃ c, r' = c ++ r ∧ bal c = -1 ∧ Low 1 c) →
        ∃ c, toks = c ++ r ∧ bal c = -1 ∧ Low 1 c := by
      rintro toks r r' ⟨c, rfl, h1, h2, _⟩ ⟨c', rfl, h3, h4⟩
      exact ⟨c ++ c', by simp, by simp [h1, h3], (h2.mono (by omega)).append h4 h1⟩
    refine ⟨?_, ?_, ?_, ?_, ?_⟩
    · intro toks e r h
      unfold pvalue at h
      split at h
      · rename_i heq; cases heq
      · cases h; exact scalar rfl
      · cases h; exact scalar rfl
      · cases h; exact scalar rfl
      · cases h; exact scalar rfl
      · cases h; exact scalar rfl
      · rename_i heq; cases heq
        split at h
        · exact openB rfl (i3 _ _ _ _ h)
        · exact openB rfl (i2 _ _ _ _ h)
      · rename_i heq; cases heq
        split at h
        · exact openB rfl (i5 _ _ _ _ h)
        · exact openB rfl (i4 _ _ _ _ h)
      · cases h
    · intro acc toks e r h
      rw [pitem] at h
      split at h
      · rename_i v r' hv
        exact seq (i1 _ _ _ hv) (i3 _ _ _ _ h)
      · cases h
    · intro acc toks e r h
      unfold pitems at h
      split at h
      · rename_i heq; cases heq
      · cases h; exact close rfl
      · rename_i heq; cases heq
        exact mid rfl (i2 _ _ _ _ h)
      · cases h
    · intro acc toks e r h
      unfold pattr at h
      split at h
      · rename_i heq; cases heq
        split at h
        · rename_i v r' hv
          exact mid rfl (mid rfl (seq (i1 _ _ _ hv) (i5 _ _ _ _ h)))
        · cases h
      · cases h
    · intro acc toks e r h
      unfold pattrs at h
      split at h
      · rename_i heq; cases heq
      · cases h; exact close rfl
      · rename_i heq; cases heq
        exact mid rfl (i4 _ _ _ _ h)
      · cases h

/-! ## A text without closing brackets -/

theorem strBody_suffix : ∀ (n : Nat) (s : Text), s.length ≤ n → ∀ {p}, strBody s = some p → p.2 <:+ s := by
  intro n
  induction n with
  | zero =>
    intro s hs p h
    cases s with
    | nil => cases h
    | cons c s => simp at hs
  | succ n ih =>
    intro s hs p h
    unfold strBody at h
    split at h
    · cases h
    · cases h; exact List.suffix_cons _ _
    · split at h
      · obtain ⟨q, hq, rfl⟩ := Option.map_eq_some_iff.mp h
        have := ih _ (by simp only [List.length_cons] at hs; omega) hq
        exact this.trans (List.suffix_append [_, _, _, _, _, _] _)
      · cases h
    · split at h
      · obtain ⟨q, hq, rfl⟩ := Option.map_eq_some_iff.mp h
        have := ih _ (by simp only [List.length_cons] at hs; omega) hq
        exact this.trans (List.suffix_append [_, _] _)
      · cases h
    · cases h
    · obtain ⟨q, hq, rfl⟩ := Option.map_eq_some_iff.mp h
      have := ih _ (by simp only [List.length_cons] at hs; omega) hq
      exact this.trans (List.suffix_cons _ _)

theorem sqBody_suffix : ∀ (s : Text) {p}, sqBody s = some p → p.2 <:+ s := by
  intro s
  induction s with
  | nil => intro p h; cases h
  | cons c s ih =>
    intro p h
    unfold sqBody at h
    split at h
    · cases h; exact List.suffix_cons _ _
    · obtain ⟨q, hq, rfl⟩ := Option.map_eq_some_iff.mp h
      exact (ih hq).trans (List.suffix_cons _ _)

theorem word_suffix (c : Char) (s : Text) : (word (c :: s)).2 <:+ s := by
  unfold word
  split <;> rename_i h
  · simp only [List.cons.injEq] at h
    rw [h.2]; exact List.suffix_append [_, _, _] _
  · simp only [List.cons.injEq] at h
    rw [h.2]; exact List.suffix_append [_, _, _, _] _
  · simp only [List.cons.injEq] at h
    rw [h.2]; exact List.suffix_append [_, _, _] _
  · exact List.suffix_refl _

theorem word_tok (s : Text) : ∀ t, (word s).1 = some t → t.bal = 0 := by
  intro t h
  unfold word at h
  split at h
  · cases h; rfl
  · cases h; rfl
  · cases h; rfl
  · cases h

theorem lexOne_suffix (c : Char) (s : Text) : (lexOne c s).2 <:+ s := by
  unfold lexOne
  split
  · split
    · rename_i h; exact strBody_suffix _ _ (Nat.le_refl _) h
    · exact List.suffix_refl _
  · split
    · split
      · rename_i h; exact sqBody_suffix _ h
      · exact List.suffix_refl _
    · iterate 6
        split
        · exact List.suffix_refl _
      simp only
      split
      · exact word_suffix c s
      · rename_i hne
        have h1 := flt_split (c :: s)
        have h2 : (fltMatch (c :: s)).2 <:+ s := by
          cases hf : (fltMatch (c :: s)).1 with
          | nil => exact absurd hf hne
          | cons x l =>
            rw [hf] at h1
            simp only [List.cons_append, List.cons.injEq] at h1
            exact ⟨l, h1.2⟩
        split <;> exact h2

theorem lexOne_tok (c : Char) (s : Text) (h1 : c ≠ ']') (h2 : c ≠ '}') : ∀ t, (lexOne c s).1 = some t →
    0 ≤ t.bal := by
  intro t h
  have z : ∀ {x : Tok}, x.bal = 0 → some x = some t → 0 ≤ t.bal := by
    intro x hx hxt; cases hxt; omega
  unfold lexOne at h
  split at h
  · split at h
    · exact z rfl h
    · cases h
  · split at h
    · split at h
      · exact z rfl h
      · cases h
    · split at h
      · cases h; decide
      · split at h
        · cases h; decide
        · split at h
          · exact z rfl h
          · split at h
            · exact z rfl h
            · simp only at h
              split at h
              · have := word_tok _ t h; omega
              · split at h
                · exact z rfl h
                · exact z rfl h

theorem low_free : ∀ (n : Nat) (s : Text), s.length ≤ n → ']' ∉ s → '}' ∉ s → Low 0 (lex s) := by
  intro n
  induction n with
  | zero =>
    intro s hs _ _
    cases s with
    | nil => exact Low.nil (Int.le_refl 0)
    | cons c s => simp at hs
  | succ n ih =>
    intro s hs h1 h2
    cases s with
    | nil => exact Low.nil (Int.le_refl 0)
    | cons c s =>
      simp only [List.mem_cons, not_or] at h1 h2
      have hsuf := lexOne_suffix c s
      have hl := lexOne_len c s
      have := ih (lexOne c s).2 (by simp only [List.length_cons] at hs; omega)
        (fun hm => h1.2 (hsuf.subset hm)) (fun hm => h2.2 (hsuf.subset hm))
      rw [lex_cons]
      cases ht : (lexOne c s).1 with
      | none => simpa using this
      | some t =>
        have hb := lexOne_tok c s (Ne.symm h1.1) (Ne.symm h2.1) t ht
        simp only [Option.toList_some, List.singleton_append]
        exact this.cons (Int.le_refl 0) (by omega)

theorem low_prefix {p s : Text} (hp : p <+: s) (h1 : ']' ∉ s) (h2 : '}' ∉ s) : Low 0 (lex p) :=
  low_free _ p (Nat.le_refl _) (fun h => h1 (hp.subset h)) (fun h => h2 (hp.subset h))

/-! ## Cutting -/

theorem prefix_split {q a b : Text} (h : q <+: a ++ b) :
    (q <+: a ∧ q ≠ a) ∨ ∃ q', q = a ++ q' ∧ q' <+: b := by
  induction a generalizing q with
  | nil => exact .inr ⟨q, rfl, h⟩
  | cons x a ih =>
    cases q with
    | nil => exact .inl ⟨List.nil_prefix, by simp⟩
    | cons y q =>
      rw [List.cons_append, List.cons_prefix_cons] at h
      obtain ⟨rfl, h⟩ := h
      rcases ih h with ⟨h1, h2⟩ | ⟨q', rfl, h3⟩
      · exact .inl ⟨List.cons_prefix_cons.mpr ⟨rfl, h1⟩, by simpa using h2⟩
      · exact .inr ⟨q', rfl, h3⟩

/-- A whole value and what is after it. -/
theorem lex_value {e : Ent} (h : TextOk fmt e) {r : Text} (hr : RowJson.Ends r) (hb : '\\' ∉ r) :
    ∃ c, lex (text fmt e ++ r) = c ++ lex r ∧ bal c = 0 ∧ Low 0 c := by
  have hv := h.reads _ r (Nat.le_refl _) hr
  obtain ⟨toks, e', hl, _, _, _, hp⟩ := (all_ok _).1 hv (by
    simp only [List.mem_append, not_or]; exact ⟨h.bs, hb⟩) h.fits
  have := hp _ [] (Nat.le_refl _)
  obtain ⟨c, hc, h1, h2, _⟩ := (taken _).1 _ _ _ this
  rw [List.append_nil, List.append_nil] at hc
  subst hc
  exact ⟨toks, hl, h1, h2⟩

theorem textAll_head (l : List Ent) {q : Text} (h : q <+: textAll fmt l false) : RowJson.Ends q := by
  cases q with
  | nil => trivial
  | cons c q =>
    cases l with
    | nil =>
      rw [textAll, List.cons_prefix_cons] at h
      exact .inr (.inl h.1)
    | cons e l =>
      simp only [textAll, Bool.false_eq_true, if_false, List.cons_append,
        List.cons_prefix_cons] at h
      exact .inl h.1

theorem textObj_head (d : List (Text × Ent)) {q : Text} (h : q <+: textObj fmt d false) :
    RowJson.Ends q := by
  cases q with
  | nil => trivial
  | cons c q =>
    cases d with
    | nil =>
      rw [textObj, List.cons_prefix_cons] at h
      exact .inr (.inr (.inl h.1))
    | cons p d =>
      obtain ⟨k, e⟩ := p
      simp only [textObj, Bool.false_eq_true, if_false, List.cons_append,
        List.cons_prefix_cons] at h
      exact .inl h.1

theorem textAll_bs (l : List Ent) (first : Bool) (h : ∀ e ∈ l, TextOk fmt e) :
    '\\' ∉ textAll fmt l first := by
  induction l generalizing first with
  | nil => simp [textAll]
  | cons e l ih =>
    have h1 := ih false fun x hx => h x (by simp [hx])
    have h2 := (h e (by simp)).bs
    cases first <;> simp [textAll, h1, h2]

theorem textObj_bs (d : List (Text × Ent)) (first : Bool) (h : ∀ p ∈ d, Plain p.1 ∧ TextOk fmt p.2) :
    '\\' ∉ textObj fmt d first := by
  induction d generalizing first with
  | nil => simp [textObj]
  | cons p d ih =>
    obtain ⟨k, e⟩ := p
    have h1 := ih false fun x hx => h x (by simp [hx])
    have h2 := (h (k, e) (by simp)).2.bs
    have h3 := plain_bs (h (k, e) (by simp)).1
    simp only at h2 h3
    cases first <;> simp [textObj, h1, h2, h3]

theorem low_comma {first : Bool} {q t : Text}
    (h : q <+: (if first then [] else [',']) ++ t) (hne : q ≠ (if first then [] else [',']) ++ t)
    (hk : ∀ q', q' <+: t → q' ≠ t → Low 0 (lex q')) : Low 0 (lex q) := by
  cases first with
  | true =>
    simp only [if_true, List.nil_append] at h hne
    exact hk q h hne
  | false =>
    simp only [Bool.false_eq_true, if_false, List.singleton_append] at h hne
    cases q with
    | nil => exact Low.nil (Int.le_refl 0)
    | cons c q =>
      rw [List.cons_prefix_cons] at h
      obtain ⟨rfl, h⟩ := h
      have := hk q h (by simpa using hne)
      rw [lex_tok (t := .comma) rfl]
      exact this.cons (Int.le_refl 0) (Int.le_refl 0)

theorem lex_name {k : Text} (hk : Plain k) {r : Text} (hb : '\\' ∉ r) :
    lex (('"' :: k ++ ['"', ':']) ++ r) = .str k :: .colon :: lex r := by
  have e : ('"' :: k ++ ['"', ':']) ++ r = '"' :: (k ++ '"' :: (':' :: r)) := by simp
  rw [e, (lex_string (RowJson.string_plain hk (':' :: r)) (by
    have := plain_bs hk
    simp [this, hb])).1, lex_tok (t := .colon) rfl]

mutual

theorem trunc : (e : Ent) → Sane fmt e → NoClose e → ∀ p, p <+: text fmt e → p ≠ text fmt e →
    Low 0 (lex p)
  | .int v, _, _, p, hp, _ => low_prefix hp (num_not (isNum_int v) (by unfold NumChar; decide))
      (num_not (isNum_int v) (by unfold NumChar; decide))
  | .bool true, _, _, p, hp, _ => low_prefix hp (by simp only [text]; decide) (by simp only [text]; decide)
  | .bool false, _, _, p, hp, _ => low_prefix hp (by simp only [text]; decide) (by simp only [text]; decide)
  | .flt t, h, _, p, hp, _ => low_prefix hp (num_not h.1 (by unfold NumChar; decide))
      (num_not h.1 (by unfold NumChar; decide))
  | .str s, _, hc, p, hp, _ => low_prefix hp (by simpa [text] using hc.1) (by simpa [text] using hc.2)
  | .null, _, _, p, hp, _ => low_prefix hp (by simp only [text]; decide) (by simp only [text]; decide)
  | .list l, h, hc, p, hp, hne => by
    rw [text] at hp hne
    cases p with
    | nil => exact Low.nil (Int.le_refl 0)
    | cons c q =>
      rw [List.cons_prefix_cons] at hp
      obtain ⟨rfl, hp⟩ := hp
      rw [lex_tok (t := .lb) rfl]
      exact (truncAll l h hc true q hp (by simpa using hne)).cons (Int.le_refl 0) (by decide)
  | .dict d, h, hc, p, hp, hne => by
    rw [text] at hp hne
    cases p with
    | nil => exact Low.nil (Int.le_refl 0)
    | cons c q =>
      rw [List.cons_prefix_cons] at hp
      obtain ⟨rfl, hp⟩ := hp
      rw [lex_tok (t := .lc) rfl]
      exact (truncObj d h.1 hc true q hp (by simpa using hne)).cons (Int.le_refl 0) (by decide)

theorem truncAll : (l : List Ent) → SaneAll fmt l → NoCloseAll l → ∀ first q, q <+: textAll fmt l first →
    q ≠ textAll fmt l first → Low 0 (lex q)
  | [], _, _, _, q, hp, hne => by
    rw [textAll] at hp hne
    cases q with
    | nil => exact Low.nil (Int.le_refl 0)
    | cons c q =>
      rw [List.cons_prefix_cons] at hp
      obtain ⟨rfl, hp⟩ := hp
      rw [List.prefix_nil] at hp
      subst hp
      exact absurd rfl hne
  | e :: l, h, hc, first, q, hp, hne => by
    rw [textAll, List.append_assoc] at hp hne
    refine low_comma hp hne ?_
    intro q' hq' hne'
    rcases prefix_split hq' with ⟨h1, h2⟩ | ⟨q'', rfl, h2⟩
    · exact trunc e h.1 hc.1 q' h1 h2
    · have hb := textAll_bs l false (textAllOk l h.2)
      obtain ⟨c, h3, h4, h5⟩ := lex_value (textOk e h.1) (textAll_head l h2) fun hm => hb (h2.subset hm)
      rw [h3]
      exact h5.append (truncAll l h.2 hc.2 false q'' h2 (fun hx => hne' (by rw [hx]))) h4

theorem truncObj : (d : List (Text × Ent)) → SaneObj fmt d → NoCloseObj d → ∀ first q,
    q <+: textObj fmt d first → q ≠ textObj fmt d first → Low 0 (lex q)
  | [], _, _, _, q, hp, hne => by
    rw [textObj] at hp hne
    cases q with
    | nil => exact Low.nil (Int.le_refl 0)
    | cons c q =>
      rw [List.cons_prefix_cons] at hp
      obtain ⟨rfl, hp⟩ := hp
      rw [List.prefix_nil] at hp
      subst hp
      exact absurd rfl hne
  | (k, e) :: d, h, hc, first, q, hp, hne => by
    rw [textObj, List.append_assoc, List.append_assoc] at hp hne
    refine low_comma hp hne ?_
    intro q' hq' hne'
    rcases prefix_split hq' with ⟨h1, h2⟩ | ⟨q'', rfl, h2⟩
    · refine low_prefix h1 ?_ ?_
      · simp [hc.1.1]
      · simp [hc.1.2]
    · have he := textOk e h.2.1
      have hd := textObjOk d h.2.2
      have hb := textObj_bs d false hd
      have hbq : '\\' ∉ q'' := by
        intro hm
        have := h2.subset hm
        simp only [List.mem_append] at this
        rcases this with hm | hm
        · exact he.bs hm
        · exact hb hm
      rw [lex_name h.1 hbq]
      refine Low.cons (k := 0) (Low.cons (k := 0) ?_ (Int.le_refl 0) (Int.le_refl 0)) (Int.le_refl 0)
        (Int.le_refl 0)
      have hne2 : q'' ≠ text fmt e ++ textObj fmt d false := fun hx => hne' (by rw [hx])
      rcases prefix_split h2 with ⟨h3, h4⟩ | ⟨r, rfl, h4⟩
      · exact trunc e h.2.1 hc.2.1 q'' h3 h4
      · obtain ⟨c, h5, h6, h7⟩ := lex_value he (textObj_head d h4) fun hm => hb (h4.subset hm)
        rw [h5]
        exact h7.append (truncObj d h.2.2 hc.2.2 false r h4 (fun hx => hne2 (by rw [hx]))) h6

end

/-- Tokens that start with a bracket that is not closed are not a value. -/
theorem parse_open {s : Text} {t : Tok} {toks : List Tok} (hs : lex s = t :: toks) (ht : t.bal = 1)
    (h : Low 0 toks) : parse s = none := by
  rw [parse]
  cases hp : pvalue (2 * (lex s).length) (lex s) with
  | none => rfl
  | some p =>
    exfalso
    obtain ⟨e, r⟩ := p
    obtain ⟨c, h1, h2, _, h4⟩ := (taken _).1 _ _ _ hp
    rw [hs] at h1
    cases c with
    | nil => exact h4 rfl
    | cons x c =>
      simp only [List.cons_append, List.cons.injEq] at h1
      obtain ⟨rfl, h1⟩ := h1
      have := h c r h1
      simp only [bal_cons] at h2
      omega

theorem parse_cut {e : Ent} (hc : e.compound) (h : Sane fmt e) (hn : NoClose e) {p : Text}
    (hp : p <+: text fmt e) (hne : p ≠ text fmt e) : parse p = none := by
  cases p with
  | nil => rfl
  | cons c q =>
    cases e with
    | list l =>
      rw [text] at hp hne
      rw [List.cons_prefix_cons] at hp
      obtain ⟨rfl, hp⟩ := hp
      exact parse_open (t := .lb) (lex_tok rfl) rfl (truncAll l h hn true q hp (by simpa using hne))
    | dict d =>
      rw [text] at hp hne
      rw [List.cons_prefix_cons] at hp
      obtain ⟨rfl, hp⟩ := hp
      exact parse_open (t := .lc) (lex_tok rfl) rfl (truncObj d h.1 hn true q hp (by simpa using hne))
    | int v => cases hc
    | bool b => cases hc
    | flt t => cases hc
    | str s => cases hc
    | null => cases hc

end Verif.JsonText
