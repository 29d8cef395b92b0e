import Verif.Dir.Show

/-!
# What is read of a message
-/

namespace Verif.Dir

open Verif.JsonText (Ent text Same SameAll lex lex_tok lex_skip pvalue pitem pitems pattr pattrs Starts Back NoFlt NoFltAll NoFltObj)
open Verif.RowJson (Plain Ends)

theorem printAll_spec (size : Nat) : ∀ (ps : List Text) (acc : Text),
    ((acc ++ ps.flatten).length < size → printAll size ps acc = acc ++ ps.flatten) ∧
    (size ≤ (acc ++ ps.flatten).length → size ≤ (printAll size ps acc).length) := by
  intro ps
  induction ps with
  | nil => intro acc; simp [printAll]
  | cons p ps ih =>
    intro acc
    obtain ⟨h1, h2⟩ := ih (acc ++ p)
    simp only [List.flatten_cons, printAll]
    rw [← List.append_assoc]
    constructor
    · intro h
      rw [if_neg, h1 h]
      simp only [List.length_append] at h ⊢
      omega
    · intro h
      split
      · assumption
      · exact h2 h

def sep (c : Bool) : Char := if c then ',' else ' '

theorem width_eq (s : SetRec) : width s = (text id (entry s)).length + 1 := by
  rw [← full_eq]
  simp only [width, List.length_append, List.length_cons, List.length_nil]
  omega

theorem pieces_eq (s : SetRec) (c : Bool) :
    ((((if c then ',' else ' ') :: headText s) :: (infoPieces (infos s) ++ [[']', '}']])).flatten) =
      sep c :: text id (entry s) := by
  rw [← full_eq]
  simp [sep]

theorem fmt_fits {s : SetRec} {c : Bool} {size : Nat} (h : width s < size) :
    fmtMeta s c size = sep c :: text id (entry s) := by
  have := (printAll_spec size (((if c then ',' else ' ') :: headText s) :: (infoPieces (infos s) ++ [[']', '}']])) []).1
  rw [List.nil_append, pieces_eq] at this
  exact this (by rw [width_eq] at h; simpa using h)

theorem fmt_long {s : SetRec} {c : Bool} {size : Nat} (h : size ≤ width s) :
    size ≤ (fmtMeta s c size).length := by
  have := (printAll_spec size (((if c then ',' else ' ') :: headText s) :: (infoPieces (infos s) ++ [[']', '}']])) []).2
  rw [List.nil_append, pieces_eq] at this
  exact this (by rw [width_eq] at h; simpa using h)

/-! ## The text of a message -/

/-- Sets with a comma or a space before the first. -/
def body : Bool → List SetRec → Text
  | _, [] => []
  | b, s :: l => sep b :: (text id (entry s) ++ body true l)

theorem body_snoc (b : Bool) (l : List SetRec) (s : SetRec) :
    body b (l ++ [s]) = body b l ++ sep (if l = [] then b else true) :: text id (entry s) := by
  induction l generalizing b with
  | nil => simp [body]
  | cons t l ih =>
    simp only [List.cons_append, body, ih]
    cases l <;> simp

theorem saneNoFlt {s : SetRec} : NoFlt (entry s) := by
  have hp : ∀ l : List (Text × Text), NoFltAll (l.map pairEnt) := by
    intro l
    induction l with
    | nil => trivial
    | cons p l ih => exact ⟨by simp [pairEnt, NoFlt, NoFltObj], ih⟩
  simp [entry, fields, timeEnt, NoFlt, NoFltObj, hp]

theorem back_entry {s : SetRec} (h : Ordinary s) : Back id (entry s) :=
  JsonText.back _ (sane_entry h) saneNoFlt

theorem lex_sp (r : Text) : lex (' ' :: r) = lex r := lex_skip rfl

theorem lex_header (r : Text) :
    lex (header ++ r) = .lc :: .str "directory".toList :: .colon :: .lb :: lex r := by
  show lex ('{' :: ' ' :: '"' :: ("directory".toList ++ '"' :: ' ' :: ':' :: ' ' :: '[' :: r)) = _
  rw [lex_tok (c := '{') (t := .lc) (r := _) rfl, lex_sp]
  have := JsonText.lex_str (s := "directory".toList) (plain_dec (by decide)) (' ' :: ':' :: ' ' :: '[' :: r)
  simp only [List.cons_append, List.append_assoc, List.nil_append] at this
  rw [this, lex_sp, lex_tok (c := ':') (t := .colon) (r := _) rfl,
    lex_sp, lex_tok (c := '[') (t := .lb) (r := _) rfl]

/-- Elements after a first, and the end. -/
theorem body_items : ∀ {l : List SetRec}, (∀ s ∈ l, Ordinary s) → ∀ {T r : Text}, Ends T → lex T = .rb :: lex r →
    ∃ toks es, lex (body true l ++ T) = toks ++ lex r ∧ SameAll (l.map entry) es ∧
      (toks.head? = some .rb ∨ toks.head? = some .comma) ∧
      ∀ m acc rest, 2 * toks.length ≤ m → pitems m acc (toks ++ rest) = some (.list (acc ++ es), rest) := by
  intro l
  induction l with
  | nil =>
    intro _ T r hT hl
    refine ⟨[.rb], [], by simp [body, hl], .nil, .inl rfl, ?_⟩
    intro m acc rest hm
    simp only [List.length_cons, List.length_nil] at hm
    obtain ⟨m, rfl⟩ : ∃ k, m = k + 1 := ⟨m - 1, by omega⟩
    simp [pitems]
  | cons s l ih =>
    intro ho T r hT hl
    have hends : Ends (body true l ++ T) := by
      cases l with
      | nil => exact hT
      | cons t l => exact .inl rfl
    obtain ⟨t1, e, a1, b1, c1, d1⟩ := back_entry (ho s (by simp)) _ hends
    obtain ⟨t2, es, a2, b2, c2, d2⟩ := ih (fun x hx => ho x (by simp [hx])) hT hl
    refine ⟨.comma :: (t1 ++ t2), e :: es, ?_, .cons c1 b2, .inr rfl, ?_⟩
    · simp only [body, sep, if_true, List.cons_append, List.append_assoc]
      rw [lex_tok (c := ',') (t := .comma) (r := _) rfl, a1, a2]
    · intro m acc rest hm
      simp only [List.length_append, List.length_cons] at hm
      obtain ⟨m, rfl⟩ : ∃ k, m = k + 2 := ⟨m - 2, by omega⟩
      simp only [List.cons_append, List.append_assoc, pitems, pitem]
      rw [d1 _ _ (by omega)]
      simp only
      rw [d2 _ _ _ (by omega)]
      simp

theorem list_items {b : Bool} {l : List SetRec} (ho : ∀ s ∈ l, Ordinary s) {T r : Text} (hT : Ends T)
    (hl : lex T = .rb :: lex r) :
    ∃ toks es, lex (body b l ++ T) = toks ++ lex r ∧ SameAll (l.map entry) es ∧
      ∀ m rest, 2 * toks.length + 2 ≤ m → pvalue m (.lb :: (toks ++ rest)) = some (.list es, rest) := by
  have comma : ∀ {toks : List JsonText.Tok} {es : List Ent}, (toks.head? = some .rb ∨ toks.head? = some .comma) →
      (∀ m acc rest, 2 * toks.length ≤ m → pitems m acc (toks ++ rest) = some (.list (acc ++ es), rest)) →
      ∀ m rest, 2 * toks.length + 2 ≤ m → pvalue m (.lb :: (toks ++ rest)) = some (.list es, rest) := by
    intro toks es hh hd m rest hm
    obtain ⟨m, rfl⟩ : ∃ k, m = k + 1 := ⟨m - 1, by omega⟩
    rw [pvalue, if_pos, hd m [] rest (by omega)]
    · rfl
    · cases toks with
      | nil => simp at hh
      | cons t ts => simpa using hh
  cases b with
  | true =>
    obtain ⟨t2, es, a2, b2, c2, d2⟩ := body_items ho hT hl
    exact ⟨t2, es, a2, b2, comma c2 d2⟩
  | false =>
    cases l with
    | nil =>
      obtain ⟨t2, es, a2, b2, c2, d2⟩ := body_items (l := []) ho hT hl
      exact ⟨t2, es, a2, b2, comma c2 d2⟩
    | cons s l =>
      have hends : Ends (body true l ++ T) := by
        cases l with
        | nil => exact hT
        | cons t l => exact .inl rfl
      obtain ⟨t1, e, a1, b1, c1, d1⟩ := back_entry (ho s (by simp)) _ hends
      obtain ⟨t2, es, a2, b2, c2, d2⟩ := body_items (l := l) (fun x hx => ho x (by simp [hx])) hT hl
      refine ⟨t1 ++ t2, e :: es, ?_, .cons c1 b2, ?_⟩
      · simp only [body, sep, Bool.false_eq_true, if_false, List.cons_append, List.append_assoc]
        rw [lex_sp, a1, a2]
      · intro m rest hm
        simp only [List.length_append] at hm
        obtain ⟨m, rfl⟩ : ∃ k, m = k + 2 := ⟨m - 2, by omega⟩
        rw [List.append_assoc, JsonText.pvalue_lb b1, pitem, d1 _ _ (by omega)]
        simp only
        rw [d2 _ _ _ (by omega)]
        simp

theorem decodeAll_same : ∀ {l : List SetRec} {es : List Ent}, (∀ s ∈ l, Ordinary s) → SameAll (l.map entry) es →
    decodeAll es = some (l.map shown) := by
  intro l
  induction l with
  | nil => intro es _ h; cases h; rfl
  | cons s l ih =>
    intro es ho h
    cases h with
    | cons h1 h2 =>
      rw [decodeAll, decode_entry (ho s (by simp)) h1, ih (fun x hx => ho x (by simp [hx])) h2]
      rfl

/-- What is read of a message with sets. -/
theorem reply_read {b more : Bool} {l : List SetRec} (ho : ∀ s ∈ l, Ordinary s) {T r : Text} (hT : Ends T)
    (hl : lex T = .rb :: .rc :: lex r) :
    processReply ⟨0, more, header ++ (body b l ++ T)⟩ = some (.listing more (l.map shown)) := by
  obtain ⟨T', hT'⟩ : ∃ T', lex T = .rb :: lex T' ∧ lex T' = .rc :: lex r := ⟨'}' :: r, by
    rw [lex_tok (c := '}') (t := .rc) (r := _) rfl, hl], lex_tok (c := '}') (t := .rc) (r := _) rfl⟩
  obtain ⟨toks, es, a, c, d⟩ := list_items (b := b) ho hT hT'.1
  have hp : JsonText.parse (header ++ (body b l ++ T)) = some (.dict [("directory".toList, .list es)]) := by
    rw [JsonText.parse, lex_header, a, hT'.2]
    generalize hn : 2 * (JsonText.Tok.lc :: .str "directory".toList :: .colon :: .lb ::
      (toks ++ .rc :: lex r)).length = n
    simp only [List.length_cons, List.length_append] at hn
    obtain ⟨n, rfl⟩ : ∃ k, n = k + 2 := ⟨n - 2, by omega⟩
    rw [pvalue, if_neg (by simp), pattr, d n _ (by omega)]
    obtain ⟨n, rfl⟩ : ∃ k, n = k + 1 := ⟨n - 1, by omega⟩
    simp [pattrs, JsonText.attrAdd, JsonText.attrIns]
  unfold processReply
  simp only [ne_eq, not_true_eq_false, if_false, hp]
  have hf : find (.dict [("directory".toList, .list es)]) "directory" = some (.list es) := by
    simp [find, JsonText.valueFind, JsonText.attrFind, JsonText.hit]
  rw [hf]
  simp only [decodeAll_same ho c]
  rfl

theorem reply_closed {b more : Bool} {l : List SetRec} (ho : ∀ s ∈ l, Ordinary s) :
    processReply ⟨0, more, header ++ body b l ++ closing⟩ = some (.listing more (l.map shown)) := by
  rw [List.append_assoc]
  refine reply_read (r := []) ho (.inr (.inl rfl)) ?_
  rfl

end Verif.Dir
