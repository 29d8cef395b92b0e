import Verif.JsonText.Spec
import Verif.RowJson.Read

/-!
# The lexer on JSON texts
-/

namespace Verif.JsonText

open Verif.RowJson (JVal natOf digits skipWs intPart fracPart expDigits expSigned expPart unsigned number)

theorem sign_split (s : Text) : (sign s).1 ++ (sign s).2 = s := by
  cases s with
  | nil => rfl
  | cons c s => simp only [sign]; split <;> rfl

theorem dot_split (s : Text) : (dot s).1 ++ (dot s).2 = s := by
  cases s with
  | nil => rfl
  | cons c s => simp only [dot]; split <;> rfl

theorem digs_split (s : Text) : (digs s).1 ++ (digs s).2 = s := List.takeWhile_append_dropWhile

theorem expo_split (s : Text) : (expo s).1 ++ (expo s).2 = s := by
  cases s with
  | nil => rfl
  | cons c s =>
    simp only [expo]
    split
    · split
      · rfl
      · simp only [List.cons_append, List.append_assoc]
        rw [digs_split, sign_split]
    · rfl

theorem flt_split (s : Text) : (fltMatch s).1 ++ (fltMatch s).2 = s := by
  simp only [fltMatch, List.append_assoc]
  rw [expo_split, digs_split, dot_split, digs_split, sign_split]

theorem strBody_len : ∀ (n : Nat) (s : Text), s.length ≤ n → ∀ {p}, strBody s = some p →
    p.2.length ≤ s.length := by
  intro n
  induction n with
  | zero =>
    intro s hs p h
    cases s with
    | nil => cases h
    | cons c s => simp at hs
  | succ n ih =>
    intro s hs p h
    unfold strBody at h
    split at h
    · cases h
    · cases h; simp
    · split at h
      · obtain ⟨q, hq, rfl⟩ := Option.map_eq_some_iff.mp h
        have := ih _ (by simp only [List.length_cons] at hs; omega) hq
        simp only [List.length_cons]; omega
      · cases h
    · split at h
      · obtain ⟨q, hq, rfl⟩ := Option.map_eq_some_iff.mp h
        have := ih _ (by simp only [List.length_cons] at hs; omega) hq
        simp only [List.length_cons]; omega
      · cases h
    · cases h
    · obtain ⟨q, hq, rfl⟩ := Option.map_eq_some_iff.mp h
      have := ih _ (by simp only [List.length_cons] at hs; omega) hq
      simp only [List.length_cons]; omega

theorem sqBody_len : ∀ (s : Text) {p}, sqBody s = some p → p.2.length ≤ s.length := by
  intro s
  induction s with
  | nil => intro p h; cases h
  | cons c s ih =>
    intro p h
    unfold sqBody at h
    split at h
    · cases h; simp
    · obtain ⟨q, hq, rfl⟩ := Option.map_eq_some_iff.mp h
      have := ih hq
      simp only [List.length_cons]; omega

theorem word_len (c : Char) (s : Text) : (word (c :: s)).2.length ≤ s.length := by
  unfold word
  split <;> rename_i h
  · simp only [List.cons.injEq] at h
    rw [h.2]; simp only [List.length_cons]; omega
  · simp only [List.cons.injEq] at h
    rw [h.2]; simp only [List.length_cons]; omega
  · simp only [List.cons.injEq] at h
    rw [h.2]; simp only [List.length_cons]; omega
  · simp

theorem lexOne_len (c : Char) (s : Text) : (lexOne c s).2.length ≤ s.length := by
  unfold lexOne
  split
  · split
    · rename_i h; exact strBody_len _ _ (Nat.le_refl _) h
    · exact Nat.le_refl _
  · split
    · split
      · rename_i h; exact sqBody_len _ h
      · exact Nat.le_refl _
    · iterate 6
        split
        · exact Nat.le_refl _
      simp only
      split
      · exact word_len c s
      · rename_i hne
        have h1 := congrArg List.length (flt_split (c :: s))
        have h2 : 0 < (fltMatch (c :: s)).1.length := List.length_pos_iff.mpr hne
        simp only [List.length_append, List.length_cons] at h1
        split
        · simp only; omega
        · simp only; omega

theorem lexN_fuel : ∀ (n m : Nat) (s : Text), s.length ≤ n → s.length ≤ m → lexN n s = lexN m s := by
  intro n
  induction n with
  | zero =>
    intro m s h _
    cases s with
    | nil => cases m <;> rfl
    | cons c s => simp at h
  | succ n ih =>
    intro m s h h'
    cases s with
    | nil => cases m <;> rfl
    | cons c s =>
      cases m with
      | zero => simp at h'
      | succ m =>
        simp only [List.length_cons] at h h'
        have hl := lexOne_len c s
        unfold lexN
        split <;> rename_i hx <;> rw [hx] at hl <;> simp only at hl <;> rw [ih m _ (by omega) (by omega)]

theorem lex_cons (c : Char) (s : Text) :
    lex (c :: s) = (lexOne c s).1.toList ++ lex (lexOne c s).2 := by
  have hl := lexOne_len c s
  show lexN (s.length + 1) (c :: s) = _
  unfold lexN lex
  split <;> rename_i hx <;> rw [hx] at hl ⊢
  · simp only [Option.toList_some, List.singleton_append]
    rw [lexN_fuel _ _ _ hl (Nat.le_refl _)]
  · simp only [Option.toList_none, List.nil_append]
    exact lexN_fuel _ _ _ hl (Nat.le_refl _)

theorem lex_tok {c : Char} {s r : Text} {t : Tok} (h : lexOne c s = (some t, r)) :
    lex (c :: s) = t :: lex r := by
  rw [lex_cons, h]; rfl

theorem lex_skip {c : Char} {s r : Text} (h : lexOne c s = (none, r)) : lex (c :: s) = lex r := by
  rw [lex_cons, h]; rfl

theorem lexOne_ws {c : Char} (s : Text) (h : c = ' ' ∨ c = '\t' ∨ c = '\n' ∨ c = '\r') :
    lexOne c s = (none, s) := by
  rcases h with rfl | rfl | rfl | rfl <;> rfl

theorem lex_skipWs (s : Text) : lex (skipWs s) = lex s := by
  induction s with
  | nil => rfl
  | cons c s ih =>
    unfold skipWs
    split
    · rename_i h
      rw [lex_skip (lexOne_ws s h), ih]
    · rfl

theorem skipWs_bs {s : Text} (h : '\\' ∉ s) : '\\' ∉ skipWs s := by
  induction s with
  | nil => exact h
  | cons c s ih =>
    unfold skipWs
    split
    · exact ih (by simp only [List.mem_cons, not_or] at h; exact h.2)
    · exact h

/-! ## Strings -/

theorem strBody_quote (s : Text) : strBody ('"' :: s) = some ([], s) := by
  unfold strBody; rfl

theorem strBody_plain {c : Char} (s : Text) (h1 : c ≠ '"') (h2 : c ≠ '\\') :
    strBody (c :: s) = (strBody s).map fun p => (c :: p.1, p.2) := by
  conv => lhs; unfold strBody
  split
  · rename_i h; cases h
  · rename_i h; simp only [List.cons.injEq] at h; exact absurd h.1 h1
  · rename_i h; simp only [List.cons.injEq] at h; exact absurd h.1 h2
  · rename_i h; simp only [List.cons.injEq] at h; exact absurd h.1 h2
  · rename_i h; simp only [List.cons.injEq] at h; exact absurd h.1 h2
  · rename_i h; simp only [List.cons.injEq] at h; rw [h.1, h.2]

theorem string_body : ∀ (n : Nat) (s : Text), s.length ≤ n → ∀ {k r}, RowJson.string s = some (k, r) →
    '\\' ∉ s → strBody s = some (k, r) ∧ '\\' ∉ r := by
  intro n
  induction n with
  | zero =>
    intro s hs k r h
    cases s with
    | nil => cases h
    | cons c s => simp at hs
  | succ n ih =>
    intro s hs k r h hb
    unfold RowJson.string at h
    split at h
    · cases h
    · cases h
      simp only [List.mem_cons, not_or] at hb
      exact ⟨strBody_quote _, hb.2⟩
    · simp at hb
    · simp at hb
    · rename_i c s hq _ _
      split at h
      · cases h
      · rename_i hc
        obtain ⟨q, hq', hp⟩ := Option.map_eq_some_iff.mp h
        cases hp
        simp only [List.mem_cons, not_or] at hb
        obtain ⟨h1, h2⟩ := ih s (by simpa using hs) (k := q.1) (r := q.2) hq' hb.2
        refine ⟨?_, h2⟩
        rw [strBody_plain s (fun hh => hq hh) (fun hh => hc (.inr hh)), h1]
        rfl

theorem lex_string {s k r : Text} (h : RowJson.string s = some (k, r)) (hb : '\\' ∉ s) :
    lex ('"' :: s) = .str k :: lex r ∧ '\\' ∉ r := by
  obtain ⟨h1, h2⟩ := string_body _ s (Nat.le_refl _) h hb
  refine ⟨lex_tok ?_, h2⟩
  unfold lexOne
  rw [if_pos rfl, h1]

/-! ## Numbers -/

theorem digits_digs (s : Text) : digits s = digs s := by
  induction s with
  | nil => rfl
  | cons c s ih =>
    unfold digits
    rw [ih]
    cases h : c.isDigit <;> simp [digs, h]

/-- A text that does not go on with a digit. -/
def NoDig (r : Text) : Prop := ∀ c s, r = c :: s → c.isDigit = false

theorem digs_append {l r : Text} (hl : ∀ c ∈ l, c.isDigit = true) (hr : NoDig r) :
    digs (l ++ r) = (l, r) := by
  induction l with
  | nil =>
    cases r with
    | nil => rfl
    | cons c r => simp [digs, hr c r rfl]
  | cons c l ih =>
    have hc : c.isDigit = true := hl c (by simp)
    have ih := ih fun c h => hl c (by simp [h])
    simp only [digs, Prod.mk.injEq] at ih
    simp [digs, hc, ih.1, ih.2]

theorem digs_facts {s d r : Text} (h : digs s = (d, r)) :
    s = d ++ r ∧ (∀ c ∈ d, c.isDigit = true) ∧ NoDig r := by
  simp only [digs, Prod.mk.injEq] at h
  obtain ⟨rfl, rfl⟩ := h
  refine ⟨List.takeWhile_append_dropWhile.symm, ?_, ?_⟩
  · intro c hc
    induction s with
    | nil => simp at hc
    | cons x s ih =>
      rw [List.takeWhile_cons] at hc
      split at hc
      · rcases List.mem_cons.mp hc with rfl | hc
        · assumption
        · exact ih hc
      · simp at hc
  · intro c t hc
    induction s with
    | nil => simp at hc
    | cons x s ih =>
      rw [List.dropWhile_cons] at hc
      split at hc
      · exact ih hc
      · rename_i hx
        simp only [List.cons.injEq] at hc
        rw [← hc.1]
        simpa using hx

/-- The fraction as it is written. -/
def FracShape (fp f : Text) : Prop :=
  (fp = [] ∧ f = []) ∨ (fp = '.' :: f ∧ f ≠ [] ∧ ∀ c ∈ f, c.isDigit = true)

/-- The exponent as it is written. -/
def ExpShape (ep : Text) (e : Int) : Prop :=
  (ep = [] ∧ e = 0) ∨ ∃ c sg d, ep = c :: (sg ++ d) ∧ (c = 'e' ∨ c = 'E') ∧
    (sg = [] ∨ sg = ['-'] ∨ sg = ['+']) ∧ d ≠ [] ∧ (∀ c ∈ d, c.isDigit = true) ∧
    e = if sg = ['-'] then -(natOf d : Int) else natOf d

/-- What follows a number does not belong to it. -/
structure Stop (fp ep r : Text) : Prop where
  dig : NoDig r
  dot : fp = [] → ep = [] → ∀ s, r ≠ '.' :: s
  exp : ep = [] → ∀ s, r ≠ 'e' :: s ∧ r ≠ 'E' :: s

structure Shape (i fp f ep : Text) (e : Int) : Prop where
  idig : ∀ c ∈ i, c.isDigit = true
  ine : i ≠ []
  izero : ∀ s, i = '0' :: s → s = []
  frac : FracShape fp f
  exp : ExpShape ep e

theorem intPart_shape {s i r : Text} (h : intPart s = some (i, r)) :
    s = i ++ r ∧ (∀ c ∈ i, c.isDigit = true) ∧ NoDig r ∧ i ≠ [] ∧ ∀ s, i = '0' :: s → s = [] := by
  unfold intPart at h
  rw [digits_digs] at h
  split at h
  · cases h
  · cases h
  · rename_i h1 h2
    have hd : digs s = (i, r) := by simpa using h
    obtain ⟨a, b, c⟩ := digs_facts hd
    refine ⟨a, b, c, ?_, ?_⟩
    · rintro rfl
      exact h1 r hd
    · intro t ht
      cases t with
      | nil => rfl
      | cons x t => exact absurd (by rw [hd, ht]) (h2 x t r)

theorem fracPart_shape {s f r : Text} (h : fracPart s = some (f, r)) (hs : NoDig s) :
    ∃ fp, s = fp ++ r ∧ FracShape fp f ∧ NoDig r ∧ (fp = [] → ∀ t, r ≠ '.' :: t) := by
  unfold fracPart at h
  split at h
  · rw [digits_digs] at h
    split at h
    · cases h
    · rename_i s _ h1
      have hd : digs s = (f, r) := by simpa using h
      obtain ⟨a, b, c⟩ := digs_facts hd
      refine ⟨'.' :: f, by rw [a]; rfl, .inr ⟨rfl, ?_, b⟩, c, by simp⟩
      rintro rfl
      exact h1 r hd
  · rename_i hne
    simp only [Option.some.injEq, Prod.mk.injEq] at h
    obtain ⟨rfl, rfl⟩ := h
    exact ⟨[], rfl, .inl ⟨rfl, rfl⟩, hs, fun _ t ht => hne t ht⟩

theorem expDigits_shape {neg : Bool} {s r : Text} {e : Int} (h : expDigits neg s = some (e, r)) :
    ∃ d, s = d ++ r ∧ d ≠ [] ∧ (∀ c ∈ d, c.isDigit = true) ∧ NoDig r ∧
      e = if neg then -(natOf d : Int) else natOf d := by
  unfold expDigits at h
  rw [digits_digs] at h
  split at h
  · cases h
  · rename_i d s' h1 hd
    simp only [Option.some.injEq, Prod.mk.injEq] at h
    obtain ⟨rfl, rfl⟩ := h
    obtain ⟨a, b, c⟩ := digs_facts hd
    exact ⟨d, a, fun h0 => h1 h0, b, c, rfl⟩

theorem expSigned_shape {c : Char} (hc : c = 'e' ∨ c = 'E') {s r : Text} {e : Int}
    (h : expSigned s = some (e, r)) : ∃ ep, c :: s = ep ++ r ∧ ExpShape ep e ∧ NoDig r ∧ ep ≠ [] := by
  unfold expSigned at h
  split at h
  · obtain ⟨d, a, b, x, y, z⟩ := expDigits_shape h
    exact ⟨c :: (['-'] ++ d), by rw [a]; rfl,
      .inr ⟨c, ['-'], d, rfl, hc, by simp, b, x, by simpa using z⟩, y, by simp⟩
  · obtain ⟨d, a, b, x, y, z⟩ := expDigits_shape h
    exact ⟨c :: (['+'] ++ d), by rw [a]; rfl,
      .inr ⟨c, ['+'], d, rfl, hc, by simp, b, x, by simpa using z⟩, y, by simp⟩
  · obtain ⟨d, a, b, x, y, z⟩ := expDigits_shape h
    exact ⟨c :: ([] ++ d), by rw [a]; rfl,
      .inr ⟨c, [], d, rfl, hc, by simp, b, x, by simpa using z⟩, y, by simp⟩

theorem expPart_shape {s r : Text} {e : Int} (h : expPart s = some (e, r)) (hs : NoDig s) :
    ∃ ep, s = ep ++ r ∧ ExpShape ep e ∧ NoDig r ∧
      (ep = [] → ∀ t, r ≠ 'e' :: t ∧ r ≠ 'E' :: t) := by
  unfold expPart at h
  split at h
  · obtain ⟨ep, a, b, c, d⟩ := expSigned_shape (.inl rfl) h
    exact ⟨ep, a, b, c, fun h => absurd h d⟩
  · obtain ⟨ep, a, b, c, d⟩ := expSigned_shape (.inr rfl) h
    exact ⟨ep, a, b, c, fun h => absurd h d⟩
  · rename_i h1 h2
    simp only [Option.some.injEq, Prod.mk.injEq] at h
    obtain ⟨rfl, rfl⟩ := h
    exact ⟨[], rfl, .inl ⟨rfl, rfl⟩, hs, fun _ t => ⟨fun h => h1 t h, fun h => h2 t h⟩⟩

theorem unsigned_shape {neg : Bool} {s r : Text} {v : JVal} (h : unsigned neg s = some (v, r)) :
    ∃ i fp f ep e, s = i ++ (fp ++ (ep ++ r)) ∧ Shape i fp f ep e ∧ Stop fp ep r ∧
      v = .num (if neg then -(natOf (i ++ f) : Int) else natOf (i ++ f)) (e - f.length) := by
  unfold unsigned at h
  split at h
  · cases h
  · rename_i i s1 h1
    split at h
    · cases h
    · rename_i f s2 h2
      split at h
      · cases h
      · rename_i e s3 h3
        simp only [Option.some.injEq, Prod.mk.injEq] at h
        obtain ⟨hv, rfl⟩ := h
        obtain ⟨a1, a2, a3, a4, a5⟩ := intPart_shape h1
        obtain ⟨fp, b1, b2, b3, b4⟩ := fracPart_shape h2 a3
        obtain ⟨ep, c1, c2, c3, c4⟩ := expPart_shape h3 b3
        refine ⟨i, fp, f, ep, e, by rw [a1, b1, c1], ⟨a2, a4, a5, b2, c2⟩, ⟨c3, ?_, c4⟩, hv.symm⟩
        rintro hf rfl t rfl
        exact b4 hf t c1

theorem digit_not {c : Char} (h : c.isDigit = true) : c ≠ '.' ∧ c ≠ 'e' ∧ c ≠ 'E' ∧ c ≠ '-' ∧ c ≠ '+' := by
  refine ⟨?_, ?_, ?_, ?_, ?_⟩ <;> (rintro rfl; exact absurd h (by decide))

theorem noDig_cons {c : Char} {s : Text} (h : c.isDigit = false) : NoDig (c :: s) := by
  intro d t ht
  simp only [List.cons.injEq] at ht
  rw [← ht.1]; exact h

theorem ExpShape.noDig {ep r : Text} {e : Int} (h : ExpShape ep e) (hr : NoDig r) : NoDig (ep ++ r) := by
  rcases h with ⟨rfl, _⟩ | ⟨c, sg, d, rfl, hc, _⟩
  · exact hr
  · exact noDig_cons (by rcases hc with rfl | rfl <;> decide)

theorem FracShape.noDig {fp f r : Text} (h : FracShape fp f) (hr : NoDig r) : NoDig (fp ++ r) := by
  rcases h with ⟨rfl, _⟩ | ⟨rfl, _⟩
  · exact hr
  · exact noDig_cons (by decide)

theorem sign_digit {c : Char} {s : Text} (h : c.isDigit = true) : sign (c :: s) = ([], c :: s) := by
  have := digit_not h
  simp only [sign]
  rw [if_neg (by simp [this])]

theorem expo_shape {ep r : Text} {e : Int} (h : ExpShape ep e) (hr : NoDig r)
    (hn : ep = [] → ∀ t, r ≠ 'e' :: t ∧ r ≠ 'E' :: t) : expo (ep ++ r) = (ep, r) := by
  rcases h with ⟨rfl, _⟩ | ⟨c, sg, d, rfl, hc, hsg, hd, hdd, _⟩
  · cases r with
    | nil => rfl
    | cons x r =>
      simp only [List.nil_append, expo]
      rw [if_neg]
      rintro (rfl | rfl)
      · exact (hn rfl r).1 rfl
      · exact (hn rfl r).2 rfl
  · have hg : sign ((sg ++ d) ++ r) = (sg, d ++ r) := by
      rcases hsg with rfl | rfl | rfl
      · cases d with
        | nil => exact absurd rfl hd
        | cons x d => exact sign_digit (hdd x (by simp))
      · rfl
      · rfl
    rw [List.cons_append]
    simp only [expo]
    rw [if_pos hc, hg, digs_append hdd hr, if_neg hd]
    rfl

theorem dot_frac {fp f r : Text} (h : FracShape fp f) (hr : NoDig r) (hn : fp = [] → ∀ t, r ≠ '.' :: t) :
    (dot (fp ++ r)).1 ++ (digs (dot (fp ++ r)).2).1 = fp ∧ (digs (dot (fp ++ r)).2).2 = r := by
  rcases h with ⟨rfl, rfl⟩ | ⟨rfl, _, hf⟩
  · have hd : dot ([] ++ r) = ([], r) := by
      cases r with
      | nil => rfl
      | cons c r =>
        simp only [List.nil_append, dot]
        rw [if_neg]
        rintro rfl
        exact hn rfl r rfl
    have := digs_append (l := []) (r := r) (by simp) hr
    rw [List.nil_append] at this
    rw [hd]
    simp only
    rw [this]
    exact ⟨rfl, rfl⟩
  · have hd : dot (('.' :: f) ++ r) = (['.'], f ++ r) := rfl
    rw [hd]
    simp only
    rw [digs_append hf hr]
    exact ⟨rfl, rfl⟩

theorem flt_shape {sg i fp f ep r : Text} {e : Int} (hsg : sg = [] ∨ sg = ['-']) (h : Shape i fp f ep e)
    (hs : Stop fp ep r) :
    fltMatch (sg ++ (i ++ (fp ++ (ep ++ r)))) = (sg ++ (i ++ (fp ++ ep)), r) ∧
      intMatch (sg ++ (i ++ (fp ++ (ep ++ r)))) = sg ++ i := by
  have hg : sign (sg ++ (i ++ (fp ++ (ep ++ r)))) = (sg, i ++ (fp ++ (ep ++ r))) := by
    rcases hsg with rfl | rfl
    · cases i with
      | nil => exact absurd rfl h.ine
      | cons x i => exact sign_digit (h.idig x (by simp))
    · rfl
  have h1 := h.exp.noDig hs.dig
  have h2 := h.frac.noDig h1
  have h3 := digs_append h.idig h2
  have h4 := dot_frac h.frac h1 (by
    intro hf t ht
    rcases h.exp with ⟨rfl, _⟩ | ⟨c, sg, d, rfl, hc, _⟩
    · exact hs.dot hf rfl t ht
    · simp only [List.cons_append, List.cons.injEq] at ht
      rcases hc with rfl | rfl
      · exact absurd ht.1 (by decide)
      · exact absurd ht.1 (by decide))
  have h5 := expo_shape h.exp hs.dig hs.exp
  constructor
  · simp only [fltMatch, hg, h3]
    rw [h4.2, h5]
    simp only [List.append_assoc, Prod.mk.injEq, and_true]
    rw [← List.append_assoc (dot _).1, h4.1]
  · simp only [intMatch, hg, h3]
    rw [if_neg h.ine]

/-! ## The reader on the text of a number alone -/

theorem noDig_digits {r : Text} (h : NoDig r) : digits r = ([], r) := by
  rw [digits_digs]
  exact digs_append (l := []) (by simp) h

theorem intPart_of {i r : Text} (h1 : ∀ c ∈ i, c.isDigit = true) (h2 : i ≠ [])
    (h3 : ∀ s, i = '0' :: s → s = []) (hr : NoDig r) : intPart (i ++ r) = some (i, r) := by
  rw [intPart, digits_digs, digs_append h1 hr]
  split
  · rename_i h; simp only [Prod.mk.injEq] at h; exact absurd h.1 h2
  · rename_i h; simp only [Prod.mk.injEq] at h; exact absurd (h3 _ h.1) (by simp)
  · rfl

theorem expDigits_of {neg : Bool} {d : Text} (h1 : d ≠ []) (h2 : ∀ c ∈ d, c.isDigit = true) :
    expDigits neg d = some (if neg then -(natOf d : Int) else natOf d, []) := by
  have := digs_append (r := []) h2 (by intro c s h; cases h)
  rw [List.append_nil] at this
  rw [expDigits, digits_digs, this]
  split
  · rename_i h; simp only [Prod.mk.injEq] at h; exact absurd h.1 h1
  · rename_i h; simp only [Prod.mk.injEq] at h; rw [← h.1, ← h.2]

theorem expPart_of {ep : Text} {e : Int} (h : ExpShape ep e) : expPart ep = some (e, []) := by
  rcases h with ⟨rfl, rfl⟩ | ⟨c, sg, d, rfl, hc, hsg, hd, hdd, rfl⟩
  · rfl
  · have key : expSigned (sg ++ d) = some (if sg = ['-'] then -(natOf d : Int) else natOf d, []) := by
      rcases hsg with rfl | rfl | rfl
      · have : expSigned d = expDigits false d := by
          cases d with
          | nil => exact absurd rfl hd
          | cons x d =>
            have := digit_not (hdd x (by simp))
            exact RowJson.expSigned_other d this.2.2.2.1 this.2.2.2.2
        rw [List.nil_append, this, expDigits_of hd hdd]
        simp
      · show expDigits true d = _
        rw [expDigits_of hd hdd]; simp
      · show expDigits false d = _
        rw [expDigits_of hd hdd]; simp
    rcases hc with rfl | rfl <;> exact key

theorem fracPart_of {fp f ep : Text} {e : Int} (h : FracShape fp f) (he : ExpShape ep e) :
    fracPart (fp ++ ep) = some (f, ep) := by
  have hn : NoDig ep := by
    have := he.noDig (r := []) (by intro c s h; cases h)
    rwa [List.append_nil] at this
  rcases h with ⟨rfl, rfl⟩ | ⟨rfl, hf, hff⟩
  · unfold fracPart
    split
    · rename_i hx
      rcases he with ⟨rfl, _⟩ | ⟨c, sg, d, rfl, hc, _⟩
      · cases hx
      · simp only [List.nil_append, List.cons.injEq] at hx
        rcases hc with rfl | rfl
        · exact absurd hx.1 (by decide)
        · exact absurd hx.1 (by decide)
    · rfl
  · show fracPart ('.' :: (f ++ ep)) = _
    unfold fracPart
    simp only
    rw [digits_digs, digs_append hff hn]
    split
    · rename_i h; simp only [Prod.mk.injEq] at h; exact absurd h.1 hf
    · rfl

theorem unsigned_of {neg : Bool} {i fp f ep : Text} {e : Int} (h : Shape i fp f ep e) :
    unsigned neg (i ++ (fp ++ ep)) =
      some (.num (if neg then -(natOf (i ++ f) : Int) else natOf (i ++ f)) (e - f.length), []) := by
  have hn : NoDig (fp ++ ep) := h.frac.noDig (by
    have := h.exp.noDig (r := []) (by intro c s h; cases h)
    rwa [List.append_nil] at this)
  rw [unsigned, intPart_of h.idig h.ine h.izero hn]
  simp only
  rw [fracPart_of h.frac h.exp]
  simp only
  rw [expPart_of h.exp]

/-! ## The value of an integer -/

theorem digit_range {c : Char} (h : c.isDigit = true) : 48 ≤ c.toNat ∧ c.toNat < 58 := by
  simp only [Char.isDigit, Bool.and_eq_true, decide_eq_true_eq, ge_iff_le] at h
  have h1 := UInt32.le_iff_toNat_le.mp h.1
  have h2 := UInt32.le_iff_toNat_le.mp h.2
  simp only [Char.toNat]
  constructor
  · simpa using h1
  · have : c.val.toNat ≤ 57 := by simpa using h2
    omega

theorem foldBase_ten {i : Text} (h : ∀ c ∈ i, c.isDigit = true) : foldBase 10 i = natOf i := by
  unfold foldBase natOf
  have : i.takeWhile (fun c => decide (c.toNat < 48 + 10)) = i := by
    induction i with
    | nil => rfl
    | cons c i ih =>
      have := (digit_range (h c (by simp))).2
      rw [List.takeWhile_cons, if_pos (by simpa using this), ih fun c hc => h c (by simp [hc])]
  rw [this]

theorem magnitude_of {i : Text} (h1 : ∀ c ∈ i, c.isDigit = true) (h3 : ∀ s, i = '0' :: s → s = []) :
    magnitude i = natOf i := by
  unfold magnitude
  split
  · rename_i s
    rw [h3 s rfl]; rfl
  · exact foldBase_ten h1

theorem clamp_of {v : Int} (h : -2 ^ 63 ≤ v ∧ v < 2 ^ 63) : clamp v = v := by
  unfold clamp
  rw [if_neg (by omega), if_neg (by omega)]

/-- The tokens of a number, and what it is parsed as. -/
theorem lex_number {s r : Text} {v : JVal} (h : number s = some (v, r)) :
    ∃ t e, lex s = t :: lex r ∧ (t ≠ .rb ∧ t ≠ .comma) ∧ (∃ p, s = p ++ r) ∧ (Fits v → Holds v e) ∧
      ∀ n rest, pvalue (n + 1) (t :: rest) = some (e, rest) := by
  have key : ∀ (neg : Bool) (sg s' : Text), (if neg then sg = ['-'] else sg = []) →
      (∀ t, number (sg ++ t) = unsigned neg t ∨ ∀ c t', t = c :: t' → c.isDigit = false) →
      unsigned neg s' = some (v, r) → ∃ t e, lex (sg ++ s') = t :: lex r ∧ (t ≠ .rb ∧ t ≠ .comma) ∧
        (∃ p, sg ++ s' = p ++ r) ∧ (Fits v → Holds v e) ∧
        ∀ n rest, pvalue (n + 1) (t :: rest) = some (e, rest) := by
    intro neg sg s' hsg hnum hu
    obtain ⟨i, fp, f, ep, e, rfl, hsh, hst, rfl⟩ := unsigned_shape hu
    have hsg' : sg = [] ∨ sg = ['-'] := by
      cases neg
      · left; simpa using hsg
      · right; simpa using hsg
    obtain ⟨hm, hi⟩ := flt_shape hsg' hsh hst
    -- the first character
    obtain ⟨c, l, hc, hcd⟩ : ∃ c l, sg ++ (i ++ (fp ++ (ep ++ r))) = c :: l ∧
        (c = '-' ∨ c.isDigit = true) := by
      rcases hsg' with rfl | rfl
      · cases i with
        | nil => exact absurd rfl hsh.ine
        | cons x i => exact ⟨x, _, rfl, .inr (hsh.idig x (by simp))⟩
      · exact ⟨'-', _, rfl, .inl rfl⟩
    have hne : (sg ++ (i ++ (fp ++ ep))) ≠ [] := by simp [hsh.ine]
    have hlex : lexOne c l = if sg ++ i = sg ++ (i ++ (fp ++ ep)) then
        (some (.int (sg ++ (i ++ (fp ++ ep)))), r) else (some (.flt (sg ++ (i ++ (fp ++ ep)))), r) := by
      have hx : c ≠ '"' ∧ c ≠ '\'' ∧ c ≠ '[' ∧ c ≠ ']' ∧ c ≠ '{' ∧ c ≠ '}' ∧ c ≠ ',' ∧ c ≠ ':' := by
        refine ⟨?_, ?_, ?_, ?_, ?_, ?_, ?_, ?_⟩ <;>
          (rintro rfl; rcases hcd with h | h <;> exact absurd h (by decide))
      unfold lexOne
      simp only [hx, if_false]
      rw [← hc, hm, hi]
      simp only
      rw [if_neg hne]
    by_cases hint : fp = [] ∧ ep = []
    · obtain ⟨rfl, rfl⟩ := hint
      have hff : f = [] := by
        rcases hsh.frac with ⟨_, h⟩ | ⟨h, _⟩
        · exact h
        · cases h
      have he : e = 0 := by
        rcases hsh.exp with ⟨_, h⟩ | ⟨_, _, _, h, _⟩
        · exact h
        · cases h
      subst hff he
      simp only [List.append_nil, List.nil_append] at hlex hc ⊢
      rw [if_pos trivial] at hlex
      refine ⟨.int (sg ++ i), .int (strtoll (sg ++ i)), ?_, ⟨by simp, by simp⟩, ⟨sg ++ i, by simp⟩,
        ?_, fun n rest => rfl⟩
      · rw [hc]; exact lex_tok hlex
      · intro hf
        have hfit := hf (by simp)
        have hval : strtoll (sg ++ i) = if neg then -(natOf i : Int) else natOf i := by
          cases neg
          · simp only [Bool.false_eq_true, if_false] at hsg hfit ⊢
            subst hsg
            have : strtoll i = clamp (magnitude i) := by
              unfold strtoll
              split
              · have := (digit_not (hsh.idig '-' (by simp))).2.2.2.1; exact absurd rfl this
              · have := (digit_not (hsh.idig '+' (by simp))).2.2.2.2; exact absurd rfl this
              · rfl
            rw [List.nil_append, this, magnitude_of hsh.idig hsh.izero, clamp_of hfit]
          · simp only [if_true] at hsg hfit ⊢
            subst hsg
            show clamp (-(magnitude i : Int)) = _
            rw [magnitude_of hsh.idig hsh.izero, clamp_of hfit]
        rw [hval]
        have : ((0 : Int) - (([] : Text).length : Int)) = 0 := rfl
        rw [this]
        exact .int _
    · have hd : sg ++ i ≠ sg ++ (i ++ (fp ++ ep)) := by
        intro hh
        have := congrArg List.length hh
        simp only [List.length_append] at this
        apply hint
        constructor
        · exact List.length_eq_zero_iff.mp (by omega)
        · exact List.length_eq_zero_iff.mp (by omega)
      rw [if_neg hd] at hlex
      refine ⟨.flt (sg ++ (i ++ (fp ++ ep))), .flt _, ?_, ⟨by simp, by simp⟩,
        ⟨sg ++ (i ++ (fp ++ ep)), by simp⟩, fun _ => .flt ?_, fun n rest => rfl⟩
      · rw [hc]; exact lex_tok hlex
      · rcases hnum (i ++ (fp ++ ep)) with h | h
        · rw [h, unsigned_of hsh]
        · exfalso
          cases i with
          | nil => exact hsh.ine rfl
          | cons x i =>
            have h1 := h x (i ++ (fp ++ ep)) rfl
            rw [hsh.idig x (by simp)] at h1
            cases h1
  cases s with
  | nil => cases h
  | cons c s =>
    by_cases hc : c = '-'
    · subst hc
      exact key true ['-'] s (by simp) (fun t => .inl rfl) h
    · rw [RowJson.number_other s hc] at h
      refine key false [] (c :: s) (by simp) (fun t => ?_) h
      cases t with
      | nil => right; intro c t h; cases h
      | cons d t =>
        by_cases hd : d = '-'
        · right
          intro x y hxy
          simp only [List.cons.injEq] at hxy
          rw [← hxy.1, hd]; decide
        · left
          exact RowJson.number_other t hd

end Verif.JsonText
