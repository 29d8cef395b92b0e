import Verif.JsonText.Parse

/-!
# Every JSON text is taken
-/

namespace Verif.JsonText

open Verif.RowJson (JVal skipWs value elems members)

theorem isHex_of {c : Char} {x : Nat} (h : RowJson.hexVal c = some x) : isHex c = true := by
  unfold RowJson.hexVal at h
  unfold isHex
  split at h
  · rename_i hd; simp [hd]
  · split at h
    · rename_i hd; simp [hd]
    · split at h
      · rename_i hd; simp [hd]
      · cases h

theorem isEsc_of {c x : Char} (h : RowJson.escape c = some x) : isEsc c = true := by
  unfold RowJson.escape at h
  split at h <;> first | decide | cases h

/-- A string of any escapes is one token: the text between its quotes. -/
theorem string_raw_body : ∀ (n : Nat) (s : Text), s.length ≤ n → ∀ {k r}, RowJson.string s = some (k, r) →
    ∃ raw, strBody s = some (raw, r) ∧ s = raw ++ '"' :: r ∧ RowJson.string (raw ++ ['"']) = some (k, []) := by
  intro n
  induction n with
  | zero =>
    intro s hs k r h
    cases s with
    | nil => cases h
    | cons c s => simp at hs
  | succ n ih =>
    intro s hs k r h
    unfold RowJson.string at h
    split at h
    · cases h
    · cases h
      exact ⟨[], strBody_quote _, rfl, by simp [RowJson.string]⟩
    · rename_i a b c d s
      split at h
      · cases h
      · rename_i x hx
        obtain ⟨q, hq', hp⟩ := Option.map_eq_some_iff.mp h
        cases hp
        obtain ⟨raw, h1, h2, h3⟩ := ih s (by simp only [List.length_cons] at hs; omega) (k := q.1)
          (r := q.2) hq'
        refine ⟨'\\' :: 'u' :: a :: b :: c :: d :: raw, ?_, by rw [h2]; simp, ?_⟩
        · have hh : (isHex a && isHex b && isHex c && isHex d) = true := by
            unfold RowJson.hex4 at hx
            split at hx
            · rename_i ha hb hc hd
              rw [isHex_of ha, isHex_of hb, isHex_of hc, isHex_of hd]; rfl
            · cases hx
          conv => lhs; unfold strBody
          simp only [hh, if_true, h1]
          rfl
        · simp only [List.cons_append]
          conv => lhs; unfold RowJson.string
          simp only [hx, h3]
          rfl
    · rename_i c s hnu
      split at h
      · cases h
      · rename_i x hx
        obtain ⟨q, hq', hp⟩ := Option.map_eq_some_iff.mp h
        cases hp
        obtain ⟨raw, h1, h2, h3⟩ := ih s (by simp only [List.length_cons] at hs; omega) (k := q.1)
          (r := q.2) hq'
        have hcu : c ≠ 'u' := by rintro rfl; cases hx
        refine ⟨'\\' :: c :: raw, ?_, by rw [h2]; simp, ?_⟩
        · conv => lhs; unfold strBody
          split
          · rename_i heq; cases heq
          · rename_i heq; simp at heq
          · rename_i heq; simp only [List.cons.injEq] at heq; exact absurd heq.2.1 hcu
          · rename_i heq
            simp only [List.cons.injEq, true_and] at heq
            obtain ⟨rfl, rfl⟩ := heq
            rw [if_pos (isEsc_of hx), h1]
            rfl
          · rename_i heq; simp at heq
          · rename_i hno _ heq
            simp only [List.cons.injEq] at heq
            obtain ⟨rfl, rfl⟩ := heq
            exact absurd rfl (hno c s rfl)
        · simp only [List.cons_append]
          conv => lhs; unfold RowJson.string
          split
          · rename_i heq; cases heq
          · rename_i heq; simp at heq
          · rename_i heq; simp only [List.cons.injEq] at heq; exact absurd heq.2.1 hcu
          · rename_i heq
            simp only [List.cons.injEq, true_and] at heq
            obtain ⟨rfl, rfl⟩ := heq
            simp only [hx, h3]
            rfl
          · rename_i hno heq
            simp only [List.cons.injEq] at heq
            obtain ⟨rfl, rfl⟩ := heq
            exact absurd rfl (hno c (raw ++ ['"']) rfl)
    · rename_i c s hq _ _
      split at h
      · cases h
      · rename_i hc
        obtain ⟨q, hq', hp⟩ := Option.map_eq_some_iff.mp h
        cases hp
        obtain ⟨raw, h1, h2, h3⟩ := ih s (by simpa using hs) (k := q.1) (r := q.2) hq'
        refine ⟨c :: raw, ?_, by rw [h2]; simp, ?_⟩
        · rw [strBody_plain s (fun hh => hq hh) (fun hh => hc (.inr hh)), h1]
          rfl
        · have hc1 : c ≠ '"' := fun hh => hq hh
          have hc2 : c ≠ '\\' := fun hh => hc (.inr hh)
          simp only [List.cons_append]
          conv => lhs; unfold RowJson.string
          split
          · rename_i heq; cases heq
          · rename_i heq; simp only [List.cons.injEq] at heq; exact absurd heq.1 hc1
          · rename_i heq; simp only [List.cons.injEq] at heq; exact absurd heq.1 hc2
          · rename_i heq; simp only [List.cons.injEq] at heq; exact absurd heq.1 hc2
          · rename_i heq
            simp only [List.cons.injEq] at heq
            obtain ⟨rfl, rfl⟩ := heq
            rw [if_neg hc, h3]
            rfl

theorem lex_string_raw {s k r : Text} (h : RowJson.string s = some (k, r)) :
    ∃ raw, lex ('"' :: s) = .str raw :: lex r ∧ RowJson.string (raw ++ ['"']) = some (k, []) := by
  obtain ⟨raw, h1, _, h3⟩ := string_raw_body _ s (Nat.le_refl _) h
  refine ⟨raw, lex_tok ?_, h3⟩
  unfold lexOne
  rw [if_pos rfl, h1]

/-! ## Texts -/

def ValueIn (n : Nat) : Prop := ∀ {s r : Text} {v : JVal}, value n s = some (v, r) →
  ∃ toks e, lex s = toks ++ lex r ∧ Starts toks ∧
    ∀ m rest, 2 * toks.length ≤ m → pvalue m (toks ++ rest) = some (e, rest)

def ElemsIn (n : Nat) : Prop := ∀ {s r : Text} {l : List JVal}, elems n s = some (l, r) →
  ∃ toks, lex s = toks ++ lex r ∧ Starts toks ∧
    ∀ acc, ∃ e, ∀ m rest, 2 * toks.length + 1 ≤ m → pitem m acc (toks ++ rest) = some (e, rest)

def MembersIn (n : Nat) : Prop := ∀ {s r : Text} {l : List (Text × JVal)}, members n s = some (l, r) →
  ∃ toks, lex s = toks ++ lex r ∧ Starts toks ∧ ∀ acc, ∃ e,
    ∀ m rest, 2 * toks.length + 1 ≤ m → pattr m acc (toks ++ rest) = some (e, rest)

theorem one_in {s r : Text} {t : Tok} {e : Ent} (hl : lex s = t :: lex r)
    (ht : t ≠ .rb ∧ t ≠ .comma ∧ t ≠ .rc) (hp : ∀ n rest, pvalue (n + 1) (t :: rest) = some (e, rest)) :
    ∃ toks e, lex s = toks ++ lex r ∧ Starts toks ∧
      ∀ m rest, 2 * toks.length ≤ m → pvalue m (toks ++ rest) = some (e, rest) := by
  refine ⟨[t], e, hl, ⟨t, [], rfl, ht⟩, ?_⟩
  intro m rest hm
  simp only [List.length_singleton] at hm
  obtain ⟨m, rfl⟩ : ∃ k, m = k + 1 := ⟨m - 1, by omega⟩
  exact hp m rest

theorem value_in {n : Nat} (ih1 : ElemsIn n) (ih2 : MembersIn n) : ValueIn (n + 1) := by
  intro s r v h
  unfold value at h
  split at h
  · rename_i s' hs
    obtain ⟨⟨k, r'⟩, hq, hp⟩ := Option.map_eq_some_iff.mp h
    cases hp
    obtain ⟨raw, h1, _⟩ := lex_string_raw hq
    refine one_in (t := .str raw) (e := .str raw) ?_ ⟨by simp, by simp, by simp⟩ (fun _ _ => rfl)
    rw [← lex_skipWs s, hs]; exact h1
  · rename_i s' hs
    have hlb := lex_one (c := '[') (t := .lb) (fun s => rfl) hs
    split at h
    · rename_i s'' hs'
      cases h
      have hrb := lex_one (c := ']') (t := .rb) (fun s => rfl) hs'
      refine ⟨[.lb, .rb], .list [], by rw [hlb, hrb]; rfl, ⟨_, _, rfl, by simp, by simp, by simp⟩, ?_⟩
      intro m rest hm
      simp only [List.length_cons, List.length_nil] at hm
      obtain ⟨m, rfl⟩ : ∃ k, m = k + 2 := ⟨m - 2, by omega⟩
      rfl
    · obtain ⟨⟨l, r'⟩, hq, hp⟩ := Option.map_eq_some_iff.mp h
      cases hp
      obtain ⟨toks, a, d, e⟩ := ih1 hq
      obtain ⟨x, hx⟩ := e []
      refine ⟨.lb :: toks, x, ?_, ⟨_, _, rfl, by simp, by simp, by simp⟩, ?_⟩
      · rw [hlb, ← lex_skipWs s', a]; rfl
      · intro m rest hm
        simp only [List.length_cons] at hm
        obtain ⟨m, rfl⟩ : ∃ k, m = k + 1 := ⟨m - 1, by omega⟩
        rw [List.cons_append, pvalue_lb d, hx m rest (by omega)]
  · rename_i s' hs
    have hlc := lex_one (c := '{') (t := .lc) (fun s => rfl) hs
    split at h
    · rename_i s'' hs'
      cases h
      have hrc := lex_one (c := '}') (t := .rc) (fun s => rfl) hs'
      refine ⟨[.lc, .rc], .dict [], by rw [hlc, hrc]; rfl, ⟨_, _, rfl, by simp, by simp, by simp⟩, ?_⟩
      intro m rest hm
      simp only [List.length_cons, List.length_nil] at hm
      obtain ⟨m, rfl⟩ : ∃ k, m = k + 2 := ⟨m - 2, by omega⟩
      rfl
    · obtain ⟨⟨l, r'⟩, hq, hp⟩ := Option.map_eq_some_iff.mp h
      cases hp
      obtain ⟨toks, a, d, e⟩ := ih2 hq
      obtain ⟨x, hx⟩ := e []
      refine ⟨.lc :: toks, x, ?_, ⟨_, _, rfl, by simp, by simp, by simp⟩, ?_⟩
      · rw [hlc, ← lex_skipWs s', a]; rfl
      · intro m rest hm
        simp only [List.length_cons] at hm
        obtain ⟨m, rfl⟩ : ∃ k, m = k + 1 := ⟨m - 1, by omega⟩
        rw [List.cons_append, pvalue_lc d, hx m rest (by omega)]
  · rename_i s' hs
    cases h
    exact one_in (t := .bool true) (e := .bool true) (by rw [← lex_skipWs s, hs]; exact lex_tok rfl)
      ⟨by simp, by simp, by simp⟩ (fun _ _ => rfl)
  · rename_i s' hs
    cases h
    exact one_in (t := .bool false) (e := .bool false) (by rw [← lex_skipWs s, hs]; exact lex_tok rfl)
      ⟨by simp, by simp, by simp⟩ (fun _ _ => rfl)
  · rename_i s' hs
    cases h
    exact one_in (t := .null) (e := .null) (by rw [← lex_skipWs s, hs]; exact lex_tok rfl)
      ⟨by simp, by simp, by simp⟩ (fun _ _ => rfl)
  · obtain ⟨t, e, a, b, _, _, f⟩ := lex_number h
    rw [lex_skipWs] at a
    refine one_in a ⟨b.1, b.2, ?_⟩ f
    rintro rfl
    have := f 0 []
    simp [pvalue] at this

theorem elems_in {n : Nat} (ih1 : ValueIn n) (ih2 : ElemsIn n) : ElemsIn (n + 1) := by
  intro s r l h
  unfold elems at h
  split at h
  · cases h
  · rename_i v s1 hv
    obtain ⟨tv, e, a1, d1, e1⟩ := ih1 hv
    split at h
    · rename_i s2 hs
      obtain ⟨⟨l', r'⟩, hq, hp⟩ := Option.map_eq_some_iff.mp h
      cases hp
      have hcm := lex_one (c := ',') (t := .comma) (fun s => rfl) hs
      obtain ⟨tl, a2, d2, e2⟩ := ih2 hq
      refine ⟨tv ++ .comma :: tl, ?_, starts_append d1, ?_⟩
      · rw [a1, hcm, a2]; simp
      · intro acc
        obtain ⟨x, hx⟩ := e2 (acc ++ [e])
        refine ⟨x, ?_⟩
        intro m rest hm
        simp only [List.length_append, List.length_cons] at hm
        obtain ⟨m, rfl⟩ : ∃ k, m = k + 2 := ⟨m - 2, by omega⟩
        rw [List.append_assoc, pitem, e1 _ _ (by omega)]
        show pitem m (acc ++ [e]) (tl ++ rest) = _
        exact hx m rest (by omega)
    · rename_i s2 hs
      cases h
      have hrb := lex_one (c := ']') (t := .rb) (fun s => rfl) hs
      refine ⟨tv ++ [.rb], ?_, starts_append d1, ?_⟩
      · rw [a1, hrb]; simp
      · intro acc
        refine ⟨.list (acc ++ [e]), ?_⟩
        intro m rest hm
        simp only [List.length_append, List.length_cons, List.length_nil] at hm
        obtain ⟨m, rfl⟩ : ∃ k, m = k + 2 := ⟨m - 2, by omega⟩
        rw [List.append_assoc, pitem, e1 _ _ (by omega)]
        rfl
    · cases h

theorem members_in {n : Nat} (ih1 : ValueIn n) (ih2 : MembersIn n) : MembersIn (n + 1) := by
  intro s r l h
  unfold members at h
  split at h
  · rename_i s0 hs0
    split at h
    · cases h
    · rename_i k s1 hk
      obtain ⟨raw, ak, _⟩ := lex_string_raw hk
      have hlk : lex s = .str raw :: lex s1 := by rw [← lex_skipWs s, hs0]; exact ak
      split at h
      · rename_i s2 hs2
        have hco := lex_one (c := ':') (t := .colon) (fun s => rfl) hs2
        split at h
        · cases h
        · rename_i v s3 hv
          obtain ⟨tv, e, a1, d1, e1⟩ := ih1 hv
          split at h
          · rename_i s4 hs4
            obtain ⟨⟨l', r'⟩, hq, hp⟩ := Option.map_eq_some_iff.mp h
            cases hp
            have hcm := lex_one (c := ',') (t := .comma) (fun s => rfl) hs4
            obtain ⟨tl, a2, d2, e2⟩ := ih2 hq
            refine ⟨.str raw :: .colon :: (tv ++ .comma :: tl), ?_, ⟨_, _, rfl, by simp, by simp, by simp⟩, ?_⟩
            · rw [hlk, hco, a1, hcm, a2]; simp
            · intro acc
              obtain ⟨x, hx⟩ := e2 (attrAdd acc raw e)
              refine ⟨x, ?_⟩
              intro m rest hm
              simp only [List.length_append, List.length_cons] at hm
              obtain ⟨m, rfl⟩ : ∃ k, m = k + 2 := ⟨m - 2, by omega⟩
              simp only [List.cons_append, List.append_assoc]
              rw [pattr, e1 _ _ (by omega)]
              show pattr m (attrAdd acc raw e) (tl ++ rest) = _
              exact hx m rest (by omega)
          · rename_i s4 hs4
            cases h
            have hrc := lex_one (c := '}') (t := .rc) (fun s => rfl) hs4
            refine ⟨.str raw :: .colon :: (tv ++ [.rc]), ?_, ⟨_, _, rfl, by simp, by simp, by simp⟩, ?_⟩
            · rw [hlk, hco, a1, hrc]; simp
            · intro acc
              refine ⟨.dict (attrAdd acc raw e), ?_⟩
              intro m rest hm
              simp only [List.length_append, List.length_cons, List.length_nil] at hm
              obtain ⟨m, rfl⟩ : ∃ k, m = k + 2 := ⟨m - 2, by omega⟩
              simp only [List.cons_append, List.append_assoc]
              rw [pattr, e1 _ _ (by omega)]
              rfl
          · cases h
      · cases h
  · cases h

theorem all_in : ∀ n, ValueIn n ∧ ElemsIn n ∧ MembersIn n := by
  intro n
  induction n with
  | zero => exact ⟨fun h => (by cases h), fun h => (by cases h), fun h => (by cases h)⟩
  | succ n ih => exact ⟨value_in ih.2.1 ih.2.2, elems_in ih.1 ih.2.1, members_in ih.1 ih.2.2⟩

theorem parse_some {s r : Text} {v : JVal} {n : Nat} (h : value n s = some (v, r)) : ∃ e, parse s = some e := by
  obtain ⟨toks, e, a, _, f⟩ := (all_in n).1 h
  refine ⟨e, ?_⟩
  rw [parse, a, f _ _ (by simp only [List.length_append]; omega)]
  rfl

theorem parse_raw {s r k : Text} {n : Nat} (h : value n s = some (.str k, r)) :
    ∃ raw, parse s = some (.str raw) ∧ RowJson.string (raw ++ ['"']) = some (k, []) := by
  cases n with
  | zero => cases h
  | succ n =>
    unfold value at h
    split at h
    · rename_i s' hs
      obtain ⟨⟨k', r'⟩, hq, hp⟩ := Option.map_eq_some_iff.mp h
      cases hp
      obtain ⟨raw, h1, h2⟩ := lex_string_raw hq
      refine ⟨raw, ?_, h2⟩
      have : lex s = .str raw :: lex r' := by rw [← lex_skipWs s, hs]; exact h1
      rw [parse, this]
      simp [pvalue, Nat.mul_add]
    · split at h
      · cases h
      · obtain ⟨_, _, hp⟩ := Option.map_eq_some_iff.mp h
        cases hp
    · split at h
      · cases h
      · obtain ⟨_, _, hp⟩ := Option.map_eq_some_iff.mp h
        cases hp
    · cases h
    · cases h
    · cases h
    · exfalso
      have key : ∀ (neg : Bool) (s : Text), RowJson.unsigned neg s ≠ some (.str k, r) := by
        intro neg s hu
        obtain ⟨_, _, _, _, _, _, _, _, hv⟩ := unsigned_shape hu
        cases hv
      unfold RowJson.number at h
      split at h
      · exact key _ _ h
      · exact key _ _ h

end Verif.JsonText
