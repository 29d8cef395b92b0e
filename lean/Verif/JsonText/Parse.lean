import Verif.JsonText.Lex

/-!
# The parser on JSON texts
-/

namespace Verif.JsonText

open Verif.RowJson (JVal skipWs number value elems members readJson)

theorem attrIns_perm (k : Text) (v : Ent) : ∀ d : List (Text × Ent), (attrIns k v d).Perm ((k, v) :: d)
  | [] => .refl _
  | p :: d => by
    unfold attrIns
    split
    · exact .refl _
    · exact ((attrIns_perm k v d).cons p).trans (.swap _ _ _)

theorem eraseP_none {d : List (Text × Ent)} {k : Text} (h : ∀ p ∈ d, ¬ k <+: p.1) :
    d.eraseP (hit k) = d := by
  apply List.eraseP_of_forall_not
  intro p hp hh
  simp only [hit, Bool.and_eq_true, List.isPrefixOf_iff_prefix] at hh
  exact h p hp hh.2

theorem attrAdd_perm {d : List (Text × Ent)} {k : Text} (v : Ent) (h : ∀ p ∈ d, ¬ k <+: p.1) :
    (attrAdd d k v).Perm ((k, v) :: d) := by
  unfold attrAdd
  rw [eraseP_none h]
  exact attrIns_perm k v d

/-- The tokens of a value do not look like the end of a list. -/
def Starts (toks : List Tok) : Prop := ∃ t ts, toks = t :: ts ∧ t ≠ .rb ∧ t ≠ .comma ∧ t ≠ .rc

theorem pvalue_lb {m : Nat} {toks rest : List Tok} (h : Starts toks) :
    pvalue (m + 1) (.lb :: (toks ++ rest)) = pitem m [] (toks ++ rest) := by
  obtain ⟨t, ts, rfl, h1, h2, _⟩ := h
  rw [pvalue, if_neg]
  simp [h1, h2]

theorem pvalue_lc {m : Nat} {toks rest : List Tok} (h : Starts toks) :
    pvalue (m + 1) (.lc :: (toks ++ rest)) = pattr m [] (toks ++ rest) := by
  obtain ⟨t, ts, rfl, _, h2, h3⟩ := h
  rw [pvalue, if_neg]
  simp [h2, h3]

def ValueOk (n : Nat) : Prop := ∀ {s r : Text} {v : JVal}, value n s = some (v, r) → '\\' ∉ s → Fits v →
  ∃ toks e, lex s = toks ++ lex r ∧ '\\' ∉ r ∧ Holds v e ∧ Starts toks ∧
    ∀ m rest, 2 * toks.length ≤ m → pvalue m (toks ++ rest) = some (e, rest)

def ElemsOk (n : Nat) : Prop := ∀ {s r : Text} {l : List JVal}, elems n s = some (l, r) → '\\' ∉ s →
  FitsAll l → ∃ toks es, lex s = toks ++ lex r ∧ '\\' ∉ r ∧ HoldsAll l es ∧ Starts toks ∧
    ∀ m acc rest, 2 * toks.length + 1 ≤ m → pitem m acc (toks ++ rest) = some (.list (acc ++ es), rest)

def MembersOk (n : Nat) : Prop := ∀ {s r : Text} {l : List (Text × JVal)}, members n s = some (l, r) →
  '\\' ∉ s → FitsObj l → l.Pairwise (fun a b => ¬ b.1 <+: a.1) →
  ∃ toks d', lex s = toks ++ lex r ∧ '\\' ∉ r ∧ HoldsObj l d' ∧ Starts toks ∧
    ∀ acc, (∀ p ∈ acc, ∀ q ∈ l, ¬ q.1 <+: p.1) → ∃ d, d.Perm (d' ++ acc) ∧
      ∀ m rest, 2 * toks.length + 1 ≤ m → pattr m acc (toks ++ rest) = some (.dict d, rest)

theorem lex_one {c : Char} {t : Tok} (h : ∀ s, lexOne c s = (some t, s)) {s r : Text}
    (hs : skipWs s = c :: r) : lex s = t :: lex r := by
  rw [← lex_skipWs s, hs]
  exact lex_tok (h r)

theorem bs_tail {c : Char} {s r : Text} (hb : '\\' ∉ s) (hs : skipWs s = c :: r) : '\\' ∉ r := by
  have := skipWs_bs hb
  rw [hs] at this
  simp only [List.mem_cons, not_or] at this
  exact this.2

/-- A value of one token. -/
theorem scalar_ok {s r : Text} {v : JVal} {t : Tok} {e : Ent} (hl : lex s = t :: lex r) (hb : '\\' ∉ r)
    (hh : Holds v e) (ht : t ≠ .rb ∧ t ≠ .comma ∧ t ≠ .rc)
    (hp : ∀ n rest, pvalue (n + 1) (t :: rest) = some (e, rest)) :
    ∃ toks e, lex s = toks ++ lex r ∧ '\\' ∉ r ∧ Holds v e ∧ Starts toks ∧
      ∀ m rest, 2 * toks.length ≤ m → pvalue m (toks ++ rest) = some (e, rest) := by
  refine ⟨[t], e, hl, hb, hh, ⟨t, [], rfl, ht⟩, ?_⟩
  intro m rest hm
  simp only [List.length_singleton] at hm
  obtain ⟨m, rfl⟩ : ∃ k, m = k + 1 := ⟨m - 1, by omega⟩
  exact hp m rest

theorem word_ok {w : Text} {t : Tok} {e : Ent} {v : JVal} {c : Char} {w' : Text} (hw : w = c :: w')
    (hl : ∀ s, lexOne c (w' ++ s) = (some t, s))
    {s r : Text} (hs : skipWs s = w ++ r) (hb : '\\' ∉ s)
    (hh : Holds v e) (ht : t ≠ .rb ∧ t ≠ .comma ∧ t ≠ .rc)
    (hp : ∀ n rest, pvalue (n + 1) (t :: rest) = some (e, rest)) :
    ∃ toks e, lex s = toks ++ lex r ∧ '\\' ∉ r ∧ Holds v e ∧ Starts toks ∧
      ∀ m rest, 2 * toks.length ≤ m → pvalue m (toks ++ rest) = some (e, rest) := by
  subst hw
  refine scalar_ok ?_ ?_ hh ht hp
  · rw [← lex_skipWs s, hs]
    exact lex_tok (hl r)
  · have := skipWs_bs hb
    rw [hs] at this
    intro hr
    exact this (List.mem_append_right _ hr)

theorem value_step {n : Nat} (ih1 : ElemsOk n) (ih2 : MembersOk n) : ValueOk (n + 1) := by
  intro s r v h hb hf
  unfold value at h
  split at h
  · -- a string
    rename_i s' hs
    obtain ⟨⟨k, r'⟩, hq, hp⟩ := Option.map_eq_some_iff.mp h
    cases hp
    obtain ⟨h1, h2⟩ := lex_string hq (bs_tail hb hs)
    refine scalar_ok (t := .str k) ?_ h2 (.str k) ⟨by simp, by simp, by simp⟩ (fun _ _ => rfl)
    rw [← lex_skipWs s, hs]; exact h1
  · -- an array
    rename_i s' hs
    have hlb := lex_one (c := '[') (t := .lb) (fun s => rfl) hs
    have hb' := bs_tail hb hs
    split at h
    · rename_i s'' hs'
      cases h
      have hrb := lex_one (c := ']') (t := .rb) (fun s => rfl) hs'
      refine ⟨[.lb, .rb], .list [], by rw [hlb, hrb]; rfl, bs_tail hb' hs', .arr .nil,
        ⟨_, _, rfl, by simp, by simp, by simp⟩, ?_⟩
      intro m rest hm
      simp only [List.length_cons, List.length_nil] at hm
      obtain ⟨m, rfl⟩ : ∃ k, m = k + 2 := ⟨m - 2, by omega⟩
      rfl
    · obtain ⟨⟨l, r'⟩, hq, hp⟩ := Option.map_eq_some_iff.mp h
      cases hp
      obtain ⟨toks, es, a, b, c, d, e⟩ := ih1 hq (skipWs_bs hb') hf
      refine ⟨.lb :: toks, .list es, ?_, b, .arr c, ⟨_, _, rfl, by simp, by simp, by simp⟩, ?_⟩
      · rw [hlb, ← lex_skipWs s', a]; rfl
      · intro m rest hm
        simp only [List.length_cons] at hm
        obtain ⟨m, rfl⟩ : ∃ k, m = k + 1 := ⟨m - 1, by omega⟩
        rw [List.cons_append, pvalue_lb d, e m [] rest (by omega)]
        rfl
  · -- an object
    rename_i s' hs
    have hlc := lex_one (c := '{') (t := .lc) (fun s => rfl) hs
    have hb' := bs_tail hb hs
    split at h
    · rename_i s'' hs'
      cases h
      have hrc := lex_one (c := '}') (t := .rc) (fun s => rfl) hs'
      refine ⟨[.lc, .rc], .dict [], by rw [hlc, hrc]; rfl, bs_tail hb' hs', .obj .nil (.refl _),
        ⟨_, _, rfl, by simp, by simp, by simp⟩, ?_⟩
      intro m rest hm
      simp only [List.length_cons, List.length_nil] at hm
      obtain ⟨m, rfl⟩ : ∃ k, m = k + 2 := ⟨m - 2, by omega⟩
      rfl
    · obtain ⟨⟨l, r'⟩, hq, hp⟩ := Option.map_eq_some_iff.mp h
      cases hp
      obtain ⟨toks, d', a, b, c, d, e⟩ := ih2 hq (skipWs_bs hb') hf.1 hf.2
      obtain ⟨dd, hperm, hrun⟩ := e [] (by simp)
      rw [List.append_nil] at hperm
      refine ⟨.lc :: toks, .dict dd, ?_, b, .obj c hperm.symm, ⟨_, _, rfl, by simp, by simp, by simp⟩, ?_⟩
      · rw [hlc, ← lex_skipWs s', a]; rfl
      · intro m rest hm
        simp only [List.length_cons] at hm
        obtain ⟨m, rfl⟩ : ∃ k, m = k + 1 := ⟨m - 1, by omega⟩
        rw [List.cons_append, pvalue_lc d, hrun m rest (by omega)]
  · rename_i s' hs
    cases h
    exact word_ok (w := "true".toList) (t := .bool true) rfl (fun s => rfl) hs hb (.bool true)
      ⟨by simp, by simp, by simp⟩ (fun _ _ => rfl)
  · rename_i s' hs
    cases h
    exact word_ok (w := "false".toList) (t := .bool false) rfl (fun s => rfl) hs hb (.bool false)
      ⟨by simp, by simp, by simp⟩ (fun _ _ => rfl)
  · rename_i s' hs
    cases h
    exact word_ok (w := "null".toList) (t := .null) rfl (fun s => rfl) hs hb .null
      ⟨by simp, by simp, by simp⟩ (fun _ _ => rfl)
  · obtain ⟨t, e, a, b, ⟨p, c⟩, d, f⟩ := lex_number h
    rw [lex_skipWs] at a
    refine scalar_ok a ?_ (d hf) ?_ f
    · have := skipWs_bs hb
      rw [c] at this
      intro hr
      exact this (List.mem_append_right _ hr)
    · refine ⟨b.1, b.2, ?_⟩
      rintro rfl
      have := f 0 []
      simp [pvalue] at this

theorem starts_append {a b : List Tok} (h : Starts a) : Starts (a ++ b) := by
  obtain ⟨t, ts, rfl, h⟩ := h
  exact ⟨t, ts ++ b, rfl, h⟩

theorem elems_step {n : Nat} (ih1 : ValueOk n) (ih2 : ElemsOk n) : ElemsOk (n + 1) := by
  intro s r l h hb hf
  unfold elems at h
  split at h
  · cases h
  · rename_i v s1 hv
    have hfv : Fits v := by
      split at h
      · obtain ⟨q, _, hp⟩ := Option.map_eq_some_iff.mp h
        cases hp; exact hf.1
      · cases h; exact hf.1
      · cases h
    obtain ⟨tv, e, a1, b1, c1, d1, e1⟩ := ih1 hv hb hfv
    split at h
    · rename_i s2 hs
      obtain ⟨⟨l', r'⟩, hq, hp⟩ := Option.map_eq_some_iff.mp h
      cases hp
      have hcm := lex_one (c := ',') (t := .comma) (fun s => rfl) hs
      obtain ⟨tl, es, a2, b2, c2, d2, e2⟩ := ih2 hq (bs_tail b1 hs) hf.2
      refine ⟨tv ++ .comma :: tl, e :: es, ?_, b2, .cons c1 c2, starts_append d1, ?_⟩
      · rw [a1, hcm, a2]; simp
      · intro m acc rest hm
        simp only [List.length_append, List.length_cons] at hm
        obtain ⟨m, rfl⟩ : ∃ k, m = k + 2 := ⟨m - 2, by omega⟩
        rw [List.append_assoc, pitem, e1 _ _ (by omega)]
        show pitem m (acc ++ [e]) (tl ++ rest) = _
        rw [e2 m _ rest (by omega)]
        simp
    · rename_i s2 hs
      cases h
      have hrb := lex_one (c := ']') (t := .rb) (fun s => rfl) hs
      refine ⟨tv ++ [.rb], [e], ?_, bs_tail b1 hs, .cons c1 .nil, starts_append d1, ?_⟩
      · rw [a1, hrb]; simp
      · intro m acc rest hm
        simp only [List.length_append, List.length_cons, List.length_nil] at hm
        obtain ⟨m, rfl⟩ : ∃ k, m = k + 2 := ⟨m - 2, by omega⟩
        rw [List.append_assoc, pitem, e1 _ _ (by omega)]
        rfl
    · cases h

theorem members_step {n : Nat} (ih1 : ValueOk n) (ih2 : MembersOk n) : MembersOk (n + 1) := by
  intro s r l h hb hf hpw
  unfold members at h
  split at h
  · rename_i s0 hs0
    split at h
    · cases h
    · rename_i k s1 hk
      have hb0 := bs_tail hb hs0
      obtain ⟨ak, bk⟩ := lex_string hk hb0
      have hlk : lex s = .str k :: lex s1 := by rw [← lex_skipWs s, hs0]; exact ak
      split at h
      · rename_i s2 hs2
        have hco := lex_one (c := ':') (t := .colon) (fun s => rfl) hs2
        have hb2 := bs_tail bk hs2
        split at h
        · cases h
        · rename_i v s3 hv
          have hfv : Fits v := by
            split at h
            · obtain ⟨q, _, hp⟩ := Option.map_eq_some_iff.mp h
              cases hp; exact hf.1
            · cases h; exact hf.1
            · cases h
          obtain ⟨tv, e, a1, b1, c1, d1, e1⟩ := ih1 hv hb2 hfv
          split at h
          · rename_i s4 hs4
            obtain ⟨⟨l', r'⟩, hq, hp⟩ := Option.map_eq_some_iff.mp h
            cases hp
            have hcm := lex_one (c := ',') (t := .comma) (fun s => rfl) hs4
            rw [List.pairwise_cons] at hpw
            obtain ⟨tl, d', a2, b2, c2, d2, e2⟩ := ih2 hq (bs_tail b1 hs4) hf.2 hpw.2
            refine ⟨.str k :: .colon :: (tv ++ .comma :: tl), (k, e) :: d', ?_, b2, .cons c1 c2,
              ⟨_, _, rfl, by simp, by simp, by simp⟩, ?_⟩
            · rw [hlk, hco, a1, hcm, a2]; simp
            · intro acc hacc
              have hp := attrAdd_perm e fun p hp => hacc p hp (k, v) (by simp)
              obtain ⟨dd, hperm, hrun⟩ := e2 (attrAdd acc k e) (by
                intro p hp' q hq'
                rcases List.mem_cons.mp (hp.mem_iff.mp hp') with rfl | hp'
                · exact hpw.1 q hq'
                · exact hacc p hp' q (List.mem_cons_of_mem _ hq'))
              refine ⟨dd, ?_, ?_⟩
              · refine hperm.trans ((hp.append_left d').trans ?_)
                exact List.perm_middle
              · intro m rest hm
                simp only [List.length_append, List.length_cons] at hm
                obtain ⟨m, rfl⟩ : ∃ k, m = k + 2 := ⟨m - 2, by omega⟩
                simp only [List.cons_append, List.append_assoc]
                rw [pattr, e1 _ _ (by omega)]
                show pattr m (attrAdd acc k e) (tl ++ rest) = _
                rw [hrun m rest (by omega)]
          · rename_i s4 hs4
            cases h
            have hrc := lex_one (c := '}') (t := .rc) (fun s => rfl) hs4
            refine ⟨.str k :: .colon :: (tv ++ [.rc]), [(k, e)], ?_, bs_tail b1 hs4, .cons c1 .nil,
              ⟨_, _, rfl, by simp, by simp, by simp⟩, ?_⟩
            · rw [hlk, hco, a1, hrc]; simp
            · intro acc hacc
              have hp := attrAdd_perm e fun p hp => hacc p hp (k, v) (by simp)
              refine ⟨attrAdd acc k e, hp, ?_⟩
              intro m rest hm
              simp only [List.length_append, List.length_cons, List.length_nil] at hm
              obtain ⟨m, rfl⟩ : ∃ k, m = k + 2 := ⟨m - 2, by omega⟩
              simp only [List.cons_append, List.append_assoc]
              rw [pattr, e1 _ _ (by omega)]
              rfl
          · cases h
      · cases h
  · cases h

theorem all_ok : ∀ n, ValueOk n ∧ ElemsOk n ∧ MembersOk n := by
  intro n
  induction n with
  | zero => exact ⟨fun h => (by cases h), fun h => (by cases h), fun h => (by cases h)⟩
  | succ n ih => exact ⟨value_step ih.2.1 ih.2.2, elems_step ih.1 ih.2.1, members_step ih.1 ih.2.2⟩

theorem parse_ok {s r : Text} {v : JVal} {n : Nat} (h : value n s = some (v, r)) (hb : '\\' ∉ s)
    (hf : Fits v) : ∃ e, parse s = some e ∧ Holds v e := by
  obtain ⟨toks, e, a, _, c, _, f⟩ := (all_ok n).1 h hb hf
  refine ⟨e, ?_, c⟩
  rw [parse, a, f _ _ (by simp only [List.length_append]; omega)]
  rfl

end Verif.JsonText
