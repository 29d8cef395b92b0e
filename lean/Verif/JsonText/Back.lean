import Verif.JsonText.Dump

/-!
# What is printed is read back
-/

namespace Verif.JsonText

open Verif.RowJson (Plain Ends natOf)

variable {fmt : Text → Text}

mutual

/-- There are no floating point numbers. -/
def NoFlt : Ent → Prop
  | .flt _ => False
  | .list l => NoFltAll l
  | .dict d => NoFltObj d
  | _ => True

def NoFltAll : List Ent → Prop
  | [] => True
  | e :: l => NoFlt e ∧ NoFltAll l

def NoFltObj : List (Text × Ent) → Prop
  | [] => True
  | (_, e) :: d => NoFlt e ∧ NoFltObj d

end

/-- The text of an entity is read as the entity, whatever follows. -/
def Back (fmt : Text → Text) (e : Ent) : Prop := ∀ r, Ends r → ∃ toks e', lex (text fmt e ++ r) = toks ++ lex r ∧
  Starts toks ∧ Same e e' ∧ ∀ m rest, 2 * toks.length ≤ m → pvalue m (toks ++ rest) = some (e', rest)

theorem stop_of {r : Text} (h : Ends r) : Stop [] [] r := by
  cases r with
  | nil => exact ⟨fun c s hh => (by cases hh), fun _ _ s hh => (by cases hh), fun _ s => ⟨by simp, by simp⟩⟩
  | cons c r =>
    simp only [Ends] at h
    refine ⟨noDig_cons ?_, fun _ _ s hh => ?_, fun _ s => ⟨?_, ?_⟩⟩
    · rcases h with rfl | rfl | rfl | rfl <;> decide
    · cases hh; revert h; decide
    · intro hh; cases hh; revert h; decide
    · intro hh; cases hh; revert h; decide

theorem shape_dec (n : Nat) : Shape (decNat n) [] [] [] 0 := by
  rw [decNat_eq]
  obtain ⟨h1, _, h3, h4⟩ := RowJson.dec_facts n
  exact ⟨h1, h3, h4, .inl ⟨rfl, rfl⟩, .inl ⟨rfl, rfl⟩⟩

theorem magnitude_dec (n : Nat) : magnitude (decNat n) = n := by
  have hs := shape_dec n
  rw [magnitude_of hs.idig hs.izero, decNat_eq]
  exact (RowJson.dec_facts n).2.1

theorem strtoll_dec {v : Int} (h : -2 ^ 63 ≤ v ∧ v < 2 ^ 63) : strtoll (decInt v) = v := by
  unfold decInt
  split
  · show clamp (-(magnitude (decNat v.natAbs) : Int)) = v
    rw [magnitude_dec, clamp_of] <;> omega
  · have hs := shape_dec v.natAbs
    have : strtoll (decNat v.natAbs) = clamp (magnitude (decNat v.natAbs)) := by
      generalize hg : decNat v.natAbs = i at hs
      unfold strtoll
      split
      · have := (digit_not (hs.idig '-' (by simp))).2.2.2.1; exact absurd rfl this
      · have := (digit_not (hs.idig '+' (by simp))).2.2.2.2; exact absurd rfl this
      · rfl
    rw [this, magnitude_dec, clamp_of] <;> omega

theorem lex_int (v : Int) {r : Text} (hr : Ends r) : lex (decInt v ++ r) = .int (decInt v) :: lex r := by
  obtain ⟨sg, hsg, hd⟩ : ∃ sg, (sg = [] ∨ sg = ['-']) ∧ decInt v = sg ++ decNat v.natAbs := by
    unfold decInt
    split
    · exact ⟨['-'], .inr rfl, rfl⟩
    · exact ⟨[], .inl rfl, rfl⟩
  have hsh := shape_dec v.natAbs
  obtain ⟨hm, hi⟩ := flt_shape hsg hsh (stop_of hr)
  simp only [List.nil_append, List.append_nil] at hm hi
  rw [hd, List.append_assoc]
  obtain ⟨c, l, hc, hcd⟩ : ∃ c l, sg ++ (decNat v.natAbs ++ r) = c :: l ∧ (c = '-' ∨ c.isDigit = true) := by
    rcases hsg with rfl | rfl
    · generalize decNat v.natAbs = i at *
      cases i with
      | nil => exact absurd rfl hsh.ine
      | cons x i => exact ⟨x, _, rfl, .inr (hsh.idig x (by simp))⟩
    · exact ⟨'-', _, rfl, .inl rfl⟩
  have hne : (sg ++ decNat v.natAbs) ≠ [] := by simp [hsh.ine]
  rw [hc]
  apply lex_tok
  have hx : c ≠ '"' ∧ c ≠ '\'' ∧ c ≠ '[' ∧ c ≠ ']' ∧ c ≠ '{' ∧ c ≠ '}' ∧ c ≠ ',' ∧ c ≠ ':' := by
    refine ⟨?_, ?_, ?_, ?_, ?_, ?_, ?_, ?_⟩ <;>
      (rintro rfl; rcases hcd with h | h <;> exact absurd h (by decide))
  unfold lexOne
  simp only [hx, if_false]
  rw [← hc, hm, hi]
  simp only
  rw [if_neg hne, if_pos trivial]

theorem string_body_plain : ∀ {s : Text}, Plain s → ∀ r, strBody (s ++ '"' :: r) = some (s, r) := by
  intro s
  induction s with
  | nil => intro _ r; exact strBody_quote r
  | cons c s ih =>
    intro h r
    have hc := h c (by simp)
    rw [List.cons_append, strBody_plain _ hc.2.1 hc.2.2, ih fun d hd => h d (by simp [hd])]
    rfl

theorem lex_str {s : Text} (h : Plain s) (r : Text) : lex ('"' :: s ++ ['"'] ++ r) = .str s :: lex r := by
  simp only [List.cons_append, List.append_assoc, List.nil_append]
  apply lex_tok
  unfold lexOne
  rw [if_pos rfl, string_body_plain h r]

theorem ends_comma (r : Text) : Ends (',' :: r) := .inl rfl
theorem ends_rb (r : Text) : Ends (']' :: r) := .inr (.inl rfl)
theorem ends_rc (r : Text) : Ends ('}' :: r) := .inr (.inr (.inl rfl))

theorem ends_textAll (l : List Ent) (r : Text) : Ends (textAll fmt l false ++ r) := by
  cases l with
  | nil => exact ends_rb r
  | cons e l => simp only [textAll, List.append_assoc]; exact ends_comma _

theorem ends_textObj (d : List (Text × Ent)) (r : Text) : Ends (textObj fmt d false ++ r) := by
  cases d with
  | nil => exact ends_rc r
  | cons e l => simp only [textObj, List.cons_append, List.append_assoc]; exact ends_comma _

theorem elems_back : ∀ (l : List Ent) (e : Ent), Back fmt e → (∀ x ∈ l, Back fmt x) → ∀ r,
    ∃ toks es, lex (text fmt e ++ (textAll fmt l false ++ r)) = toks ++ lex r ∧ Starts toks ∧
      SameAll (e :: l) es ∧ ∀ m acc rest, 2 * toks.length + 1 ≤ m →
        pitem m acc (toks ++ rest) = some (.list (acc ++ es), rest) := by
  intro l
  induction l with
  | nil =>
    intro e he _ r
    obtain ⟨toks, e', a, b, c, d⟩ := he _ (ends_textAll (fmt := fmt) [] r)
    refine ⟨toks ++ [.rb], [e'], ?_, starts_append b, .cons c .nil, ?_⟩
    · rw [a]
      simp only [textAll, List.cons_append, List.nil_append, List.append_assoc]
      rw [lex_tok (c := ']') (t := .rb) (s := r) (r := r) rfl]
    · intro m acc rest hm
      simp only [List.length_append, List.length_cons, List.length_nil] at hm
      obtain ⟨m, rfl⟩ : ∃ k, m = k + 2 := ⟨m - 2, by omega⟩
      rw [List.append_assoc, pitem, d _ _ (by omega)]
      rfl
  | cons x l ih =>
    intro e he hl r
    obtain ⟨toks, e', a, b, c, d⟩ := he _ (ends_textAll (fmt := fmt) (x :: l) r)
    obtain ⟨tl, es, a2, b2, c2, d2⟩ := ih x (hl x (by simp)) (fun y hy => hl y (by simp [hy])) r
    refine ⟨toks ++ .comma :: tl, e' :: es, ?_, starts_append b, .cons c c2, ?_⟩
    · rw [a]
      simp only [textAll, Bool.false_eq_true, if_false, List.cons_append, List.nil_append, List.append_assoc]
      rw [lex_tok (c := ',') (t := .comma) (r := _) rfl, a2]
    · intro m acc rest hm
      simp only [List.length_append, List.length_cons] at hm
      obtain ⟨m, rfl⟩ : ∃ k, m = k + 2 := ⟨m - 2, by omega⟩
      rw [List.append_assoc, pitem, d _ _ (by omega)]
      show pitem m (acc ++ [e']) (tl ++ rest) = _
      rw [d2 m _ rest (by omega)]
      simp

theorem attrs_back : ∀ (l : List (Text × Ent)) (k : Text) (e : Ent), Plain k → Back fmt e →
    (∀ x ∈ l, Plain x.1 ∧ Back fmt x.2) → ((k, e) :: l).Pairwise (fun a b => ¬ b.1 <+: a.1) → ∀ r,
    ∃ toks d', lex ('"' :: k ++ ['"', ':'] ++ (text fmt e ++ (textObj fmt l false ++ r))) = toks ++ lex r ∧
      Starts toks ∧ SameObj ((k, e) :: l) d' ∧ ∀ acc : List (Text × Ent),
        (∀ p ∈ acc, ∀ q ∈ (k, e) :: l, ¬ q.1 <+: p.1) → ∃ dd, dd.Perm (d' ++ acc) ∧
        ∀ m rest, 2 * toks.length + 1 ≤ m → pattr m acc (toks ++ rest) = some (.dict dd, rest) := by
  intro l
  induction l with
  | nil =>
    intro k e hk he _ _ r
    obtain ⟨toks, e', a, b, c, d⟩ := he _ (ends_textObj (fmt := fmt) [] r)
    refine ⟨.str k :: .colon :: (toks ++ [.rc]), [(k, e')], ?_, ⟨_, _, rfl, by simp, by simp, by simp⟩,
      .cons c .nil, ?_⟩
    · have := lex_str hk (':' :: (text fmt e ++ (textObj fmt [] false ++ r)))
      simp only [List.cons_append, List.nil_append, List.append_assoc] at this ⊢
      rw [this, lex_tok (c := ':') (t := .colon) (r := _) rfl, a]
      simp only [textObj, List.cons_append, List.nil_append]
      rw [lex_tok (c := '}') (t := .rc) (s := r) (r := r) rfl]
    · intro acc hacc
      have hp := attrAdd_perm e' fun p hp => hacc p hp (k, e) (by simp)
      refine ⟨attrAdd acc k e', hp, ?_⟩
      intro m rest hm
      simp only [List.length_append, List.length_cons, List.length_nil] at hm
      obtain ⟨m, rfl⟩ : ∃ k, m = k + 2 := ⟨m - 2, by omega⟩
      simp only [List.cons_append, List.append_assoc]
      rw [pattr, d _ _ (by omega)]
      rfl
  | cons x l ih =>
    intro k e hk he hl hpw r
    obtain ⟨k2, e2⟩ := x
    obtain ⟨toks, e', a, b, c, d⟩ := he _ (ends_textObj (fmt := fmt) ((k2, e2) :: l) r)
    rw [List.pairwise_cons] at hpw
    obtain ⟨tl, d', a2, b2, c2, d2⟩ := ih k2 e2 (hl (k2, e2) (by simp)).1 (hl (k2, e2) (by simp)).2
      (fun y hy => hl y (by simp [hy])) hpw.2 r
    refine ⟨.str k :: .colon :: (toks ++ .comma :: tl), (k, e') :: d', ?_, ⟨_, _, rfl, by simp, by simp, by simp⟩,
      .cons c c2, ?_⟩
    · have := lex_str hk (':' :: (text fmt e ++ (textObj fmt ((k2, e2) :: l) false ++ r)))
      simp only [List.cons_append, List.nil_append, List.append_assoc] at this a2 ⊢
      rw [this, lex_tok (c := ':') (t := .colon) (r := _) rfl, a]
      simp only [textObj, Bool.false_eq_true, if_false, List.cons_append, List.nil_append, List.append_assoc]
      rw [lex_tok (c := ',') (t := .comma) (r := _) rfl, a2]
    · intro acc hacc
      have hp := attrAdd_perm e' fun p hp => hacc p hp (k, e) (by simp)
      obtain ⟨dd, hperm, hrun⟩ := d2 (attrAdd acc k e') (by
        intro p hp' q hq'
        rcases List.mem_cons.mp (hp.mem_iff.mp hp') with rfl | hp'
        · exact hpw.1 q hq'
        · exact hacc p hp' q (List.mem_cons_of_mem _ hq'))
      refine ⟨dd, ?_, ?_⟩
      · refine hperm.trans ((hp.append_left d').trans ?_)
        exact List.perm_middle
      · intro m rest hm
        simp only [List.length_append, List.length_cons] at hm
        obtain ⟨m, rfl⟩ : ∃ k, m = k + 2 := ⟨m - 2, by omega⟩
        simp only [List.cons_append, List.append_assoc]
        rw [pattr, d _ _ (by omega)]
        show pattr m (attrAdd acc k e') (tl ++ rest) = _
        rw [hrun m rest (by omega)]

theorem word_back {w : Text} {t : Tok} {e : Ent} (hl : ∀ r, lex (w ++ r) = t :: lex r)
    (ht : Starts [t]) (hp : ∀ m rest, pvalue (m + 1) (t :: rest) = some (e, rest)) (hs : Same e e)
    (hw : text fmt e = w) : Back fmt e := by
  intro r _
  refine ⟨[t], e, by rw [hw, hl]; rfl, ht, hs, ?_⟩
  intro m rest hm
  simp only [List.length_cons, List.length_nil] at hm
  obtain ⟨m, rfl⟩ : ∃ k, m = k + 1 := ⟨m - 1, by omega⟩
  exact hp m rest

mutual

theorem back : (e : Ent) → Sane fmt e → NoFlt e → Back fmt e
  | .int v, h, _ => by
    intro r hr
    refine ⟨[.int (decInt v)], .int v, by rw [text, lex_int v hr]; rfl, ⟨_, _, rfl, by simp, by simp, by simp⟩,
      .int v, ?_⟩
    intro m rest hm
    simp only [List.length_cons, List.length_nil] at hm
    obtain ⟨m, rfl⟩ : ∃ k, m = k + 1 := ⟨m - 1, by omega⟩
    show some (Ent.int (strtoll (decInt v)), rest) = _
    rw [strtoll_dec (by simpa only [Sane] using h)]
  | .bool true, _, _ => word_back (t := .bool true) (fun r => lex_tok rfl) ⟨_, _, rfl, by simp, by simp, by simp⟩
      (fun _ _ => rfl) (.bool true) (text.eq_2 fmt)
  | .bool false, _, _ => word_back (t := .bool false) (fun r => lex_tok rfl) ⟨_, _, rfl, by simp, by simp, by simp⟩
      (fun _ _ => rfl) (.bool false) (text.eq_3 fmt)
  | .flt _, _, h => by simp [NoFlt] at h
  | .str s, h, _ => by
    intro r _
    refine ⟨[.str s], .str s, ?_, ⟨_, _, rfl, by simp, by simp, by simp⟩, .str s, ?_⟩
    · rw [text]
      exact lex_str (by simpa only [Sane] using h) r
    · intro m rest hm
      simp only [List.length_cons, List.length_nil] at hm
      obtain ⟨m, rfl⟩ : ∃ k, m = k + 1 := ⟨m - 1, by omega⟩
      rfl
  | .null, _, _ => word_back (t := .null) (fun r => lex_tok rfl) ⟨_, _, rfl, by simp, by simp, by simp⟩
      (fun _ _ => rfl) .null (text.eq_6 fmt)
  | .list l, h, hn => by
    have hb := backAll l (by simpa only [Sane] using h) (by simpa only [NoFlt] using hn)
    intro r _
    cases l with
    | nil =>
      refine ⟨[.lb, .rb], .list [], ?_, ⟨_, _, rfl, by simp, by simp, by simp⟩, .list .nil, ?_⟩
      · simp only [text, textAll, List.cons_append, List.nil_append]
        rw [lex_tok (c := '[') (t := .lb) (r := _) rfl, lex_tok (c := ']') (t := .rb) (r := _) rfl]
      · intro m rest hm
        simp only [List.length_cons, List.length_nil] at hm
        obtain ⟨m, rfl⟩ : ∃ k, m = k + 2 := ⟨m - 2, by omega⟩
        simp [pvalue, pitems]
    | cons e l =>
      obtain ⟨toks, es, a, b, c, d⟩ := elems_back l e (hb e (by simp)) (fun x hx => hb x (by simp [hx])) r
      refine ⟨.lb :: toks, .list es, ?_, ⟨_, _, rfl, by simp, by simp, by simp⟩, .list c, ?_⟩
      · simp only [text, textAll, if_true, List.nil_append, List.cons_append, List.append_assoc]
        rw [lex_tok (c := '[') (t := .lb) (r := _) rfl, a]
      · intro m rest hm
        simp only [List.length_cons] at hm
        obtain ⟨m, rfl⟩ : ∃ k, m = k + 1 := ⟨m - 1, by omega⟩
        rw [List.cons_append, pvalue_lb b, d m [] rest (by omega)]
        rfl
  | .dict dd, h, hn => by
    have hs : SaneObj fmt dd ∧ dd.Pairwise fun a b => ¬ b.1 <+: a.1 := by simpa only [Sane] using h
    have hb := backObj dd hs.1 (by simpa only [NoFlt] using hn)
    intro r _
    cases dd with
    | nil =>
      refine ⟨[.lc, .rc], .dict [], ?_, ⟨_, _, rfl, by simp, by simp, by simp⟩, .dict .nil (.refl _), ?_⟩
      · simp only [text, textObj, List.cons_append, List.nil_append]
        rw [lex_tok (c := '{') (t := .lc) (r := _) rfl, lex_tok (c := '}') (t := .rc) (r := _) rfl]
      · intro m rest hm
        simp only [List.length_cons, List.length_nil] at hm
        obtain ⟨m, rfl⟩ : ∃ k, m = k + 2 := ⟨m - 2, by omega⟩
        simp [pvalue, pattrs]
    | cons x l =>
      obtain ⟨k, e⟩ := x
      obtain ⟨toks, d', a, b, c, d⟩ := attrs_back l k e (hb (k, e) (by simp)).1 (hb (k, e) (by simp)).2
        (fun x hx => hb x (by simp [hx])) hs.2 r
      obtain ⟨dd, hperm, hrun⟩ := d [] (fun p hp => (by cases hp))
      rw [List.append_nil] at hperm
      refine ⟨.lc :: toks, .dict dd, ?_, ⟨_, _, rfl, by simp, by simp, by simp⟩, .dict c hperm.symm, ?_⟩
      · simp only [text, textObj, if_true, List.nil_append, List.cons_append, List.append_assoc] at a ⊢
        rw [lex_tok (c := '{') (t := .lc) (r := _) rfl, a]
      · intro m rest hm
        simp only [List.length_cons] at hm
        obtain ⟨m, rfl⟩ : ∃ k, m = k + 1 := ⟨m - 1, by omega⟩
        rw [List.cons_append, pvalue_lc b, hrun m rest (by omega)]

theorem backAll : (l : List Ent) → SaneAll fmt l → NoFltAll l → ∀ e ∈ l, Back fmt e
  | [], _, _ => fun _ h => (by cases h)
  | e :: l, h, hn => fun x hx => by
    rcases List.mem_cons.mp hx with hx | hx
    · rw [hx]
      exact back e h.1 hn.1
    · exact backAll l h.2 hn.2 x hx

theorem backObj : (d : List (Text × Ent)) → SaneObj fmt d → NoFltObj d → ∀ p ∈ d, Plain p.1 ∧ Back fmt p.2
  | [], _, _ => fun _ h => (by cases h)
  | (k, e) :: d, h, hn => fun x hx => by
    rcases List.mem_cons.mp hx with hx | hx
    · rw [hx]
      exact ⟨h.1, back e h.2.1 hn.1⟩
    · exact backObj d h.2.2 hn.2 x hx

end

/-- The text of an entity, whatever follows, is parsed as the entity. -/
theorem parse_back {e : Ent} (h : Sane fmt e) (hn : NoFlt e) {r : Text} (hr : Ends r) :
    ∃ e', parse (text fmt e ++ r) = some e' ∧ Same e e' := by
  obtain ⟨toks, e', a, _, c, d⟩ := back e h hn r hr
  refine ⟨e', ?_, c⟩
  rw [parse, a, d _ _ (by simp only [List.length_append]; omega)]
  rfl

end Verif.JsonText
