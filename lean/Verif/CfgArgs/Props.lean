import Verif.CfgArgs.Model

/-!
# Properties of the argument encoding (C34)
-/

namespace Verif.CfgArgs

open Verif.NameTab (attrStr2Id codes)

/-! ## specification -/

/-- words joined by single blanks -/
def joinWords : List (List Nat) → List Nat
  | [] => []
  | [w] => w
  | w :: v :: ws => w ++ (32 :: joinWords (v :: ws))

/-- the words of the line which are not attributes of their own -/
def kept (p : Parser) (line : List Nat) : List (List Nat) :=
  (words line).filter (fun w => !p.isAttr (splitEq w).1)

/-- the words which are -/
def taken (p : Parser) (line : List Nat) : List (List Nat) :=
  (words line).filter (fun w => p.isAttr (splitEq w).1)

/-- the attributes the taken words stand for, if all their names are known -/
def attrsOf : List (List Nat) → Option (List (Nat × Option (List Nat)))
  | [] => some []
  | w :: ws =>
    match attrStr2Id (splitEq w).1, attrsOf ws with
    | some id, some as => some ((id, (splitEq w).2) :: as)
    | _, _ => none

/-! ## words -/

theorem fmt_splitEq (w : List Nat) : fmt (splitEq w) = w ++ [32] := by
  induction w with
  | nil => rfl
  | cons c w ih =>
    rw [splitEq]
    split
    · rename_i h; subst h; rfl
    · simp only [fmt] at ih ⊢
      cases hv : (splitEq w).2 with
      | none => rw [hv] at ih; simp only at ih ⊢; rw [List.cons_append, ih]; rfl
      | some v => rw [hv] at ih; simp only at ih ⊢; rw [List.cons_append, ih]; rfl

/-- room taken by words each followed by a blank -/
def room (ws : List (List Nat)) : Nat := (ws.map (fun w => w.length + 1)).sum

theorem wordsAux_room : ∀ line cur, room (wordsAux cur line) ≤ cur.length + line.length + 1 := by
  intro line
  induction line with
  | nil =>
    intro cur
    rw [wordsAux]
    split <;> simp [room]
  | cons c line ih =>
    intro cur
    rw [wordsAux]
    split
    · split
      · have := ih []
        simp only [List.length_nil, List.length_cons] at this ⊢; omega
      · have := ih []
        simp only [room, List.map_cons, List.sum_cons, List.length_nil, List.length_cons] at this ⊢
        omega
    · have := ih (cur ++ [c])
      simp only [List.length_append, List.length_cons, List.length_nil] at this ⊢
      omega

theorem words_room (line : List Nat) : room (words line) ≤ line.length + 1 := by
  have := wordsAux_room line []
  simpa [words] using this

theorem wordsAux_mem : ∀ line cur, (∀ b ∈ line, b ≠ 0) → (∀ b ∈ cur, b ≠ 0) →
    ∀ w ∈ wordsAux cur line, w ≠ [] ∧ ∀ b ∈ w, b ≠ 0 := by
  intro line
  induction line with
  | nil =>
    intro cur _ hc w hw
    rw [wordsAux] at hw
    split at hw
    · cases hw
    · rename_i hne
      rw [List.mem_singleton] at hw; subst hw; exact ⟨hne, hc⟩
  | cons c line ih =>
    intro cur hl hc w hw
    have hl' : ∀ b ∈ line, b ≠ 0 := fun b hb => hl b (List.mem_cons_of_mem _ hb)
    rw [wordsAux] at hw
    split at hw
    · split at hw
      · exact ih [] hl' (by simp) w hw
      · rename_i hne
        rcases List.mem_cons.1 hw with hw | hw
        · subst hw; exact ⟨hne, hc⟩
        · exact ih [] hl' (by simp) w hw
    · apply ih (cur ++ [c]) hl' _ w hw
      intro b hb
      rcases List.mem_append.1 hb with hb | hb
      · exact hc b hb
      · rw [List.mem_singleton] at hb; subst hb; exact hl _ (List.mem_cons_self ..)

theorem room_filter (f : List Nat → Bool) (ws : List (List Nat)) :
    room (ws.filter f) + room (ws.filter (fun w => !f w)) = room ws := by
  induction ws with
  | nil => rfl
  | cons w ws ih =>
    simp only [List.filter_cons]
    cases f w <;> simp [room] at ih ⊢ <;> omega

/-! ## what the words of a line are -/

theorem wordsAux_spec : ∀ line cur, (∀ b ∈ cur, isDelim b = false) →
    (wordsAux cur line).flatten = cur ++ line.filter (fun c => !isDelim c) ∧
    ∀ w ∈ wordsAux cur line, w ≠ [] ∧ ∀ b ∈ w, isDelim b = false := by
  intro line
  induction line with
  | nil =>
    intro cur hc
    rw [wordsAux]
    split
    · rename_i h; subst h; simp
    · rename_i h; simpa using ⟨h, hc⟩
  | cons c line ih =>
    intro cur hc
    rw [wordsAux]
    cases hd : isDelim c with
    | true =>
      simp only [if_true, List.filter_cons, hd, Bool.not_true, Bool.false_eq_true, if_false]
      obtain ⟨h1, h2⟩ := ih [] (by simp)
      split
      · rename_i h; subst h; exact ⟨h1, h2⟩
      · rename_i h
        rw [List.nil_append] at h1
        refine ⟨by rw [List.flatten_cons, h1], fun w hw => ?_⟩
        rcases List.mem_cons.1 hw with hw | hw
        · subst hw; exact ⟨h, hc⟩
        · exact h2 w hw
    | false =>
      simp only [Bool.false_eq_true, if_false, List.filter_cons, hd, Bool.not_false, if_true]
      obtain ⟨h1, h2⟩ := ih (cur ++ [c]) (by
        intro b hb
        rcases List.mem_append.1 hb with hb | hb
        · exact hc b hb
        · rw [List.mem_singleton] at hb; subst hb; exact hd)
      exact ⟨by rw [h1, List.append_assoc]; rfl, h2⟩

/-- The words of a line are non-empty, have no blank or tab, and together are all the other
characters of the line in order. -/
theorem words_spec (line : List Nat) :
    (words line).flatten = line.filter (fun c => !isDelim c) ∧
    ∀ w ∈ words line, w ≠ [] ∧ ∀ b ∈ w, isDelim b = false := by
  simpa [words] using wordsAux_spec line [] (by simp)

theorem wordsAux_run : ∀ w cur rest, (∀ b ∈ w, isDelim b = false) →
    wordsAux cur (w ++ rest) = wordsAux (cur ++ w) rest := by
  intro w
  induction w with
  | nil => intro cur rest _; simp
  | cons c w ih =>
    intro cur rest h
    rw [List.cons_append, wordsAux, h c (List.mem_cons_self ..)]
    simp only [Bool.false_eq_true, if_false]
    rw [ih _ _ (fun b hb => h b (List.mem_cons_of_mem _ hb)), List.append_assoc]
    rfl

/-- The words of blank-separated words are those words: what the parser encodes is cut by the
receiver into the same arguments. -/
theorem words_join : ∀ ws : List (List Nat), (∀ w ∈ ws, w ≠ [] ∧ ∀ b ∈ w, isDelim b = false) →
    words (joinWords ws) = ws := by
  intro ws
  induction ws with
  | nil => intro _; rfl
  | cons w ws ih =>
    intro h
    have hw := h w (List.mem_cons_self ..)
    have ih := ih (fun x hx => h x (List.mem_cons_of_mem _ hx))
    cases ws with
    | nil =>
      rw [joinWords, words, ← List.append_nil w, wordsAux_run _ _ _ hw.2, wordsAux]
      simp [hw.1]
    | cons v ws =>
      rw [joinWords, words, wordsAux_run _ _ _ hw.2, List.nil_append, wordsAux,
        show isDelim 32 = true from rfl]
      simp only [if_true]
      rw [if_neg hw.1]
      congr 1

/-- so no argument is lost, added or changed between the line and the encoded string -/
theorem kept_round_trip (p : Parser) (line : List Nat) :
    words (joinWords (kept p line)) = kept p line :=
  words_join _ (fun w hw => (words_spec line).2 w (List.mem_filter.1 hw).1)

/-! ## the scratch buffer -/

/-- each word followed by a blank -/
def text (ws : List (List Nat)) : List Nat := (ws.map (fun w => w ++ [32])).flatten

theorem text_length (ws : List (List Nat)) : (text ws).length = room ws := by
  induction ws with
  | nil => rfl
  | cons w ws ih => simp [text, room] at ih ⊢; omega

theorem text_append (a b : List (List Nat)) : text (a ++ b) = text a ++ text b := by
  simp [text]

/-- what the buffer holds after some words -/
structure Holds (t : Tmp) (cap : Nat) (T : List Nat) : Prop where
  len : t.mem.length = cap
  cnt : t.cnt = T.length
  le : T.length ≤ cap
  all : T.length < cap → t.mem.take T.length = T
  most : t.mem.take (T.length - 1) = T.take (T.length - 1)

theorem snprintf_holds {t : Tmp} {cap : Nat} {T : List Nat} (h : Holds t cap T) (w : List Nat)
    (hle : (T ++ (w ++ [32])).length ≤ cap) :
    ∃ t', snprintf t (w ++ [32]) = some t' ∧ Holds t' cap (T ++ (w ++ [32])) := by
  simp only [List.length_append, List.length_cons, List.length_nil] at hle
  have hlt : T.length < cap := by omega
  have hT := h.all hlt
  rw [snprintf]
  have h1 := h.len
  have h2 := h.cnt
  simp only [h1, h2]
  have hs : (if T.length ≤ cap then cap - T.length else 2 ^ 64 - (T.length - cap)) =
      cap - T.length := if_pos (by omega)
  simp only [hs]
  rw [if_neg (by omega)]
  by_cases hfit : T.length + (w.length + 1) < cap
  · -- the text and the NUL fit
    have ht : (w ++ [32]).take (cap - T.length - 1) = w ++ [32] :=
      List.take_of_length_le (by simp; omega)
    rw [ht, store, if_pos (by simp; omega)]
    refine ⟨_, rfl, ?_⟩
    have hlen : (T ++ (w ++ [32])).length = T.length + (w.length + 1) := by simp
    have hm : List.take T.length t.mem ++ (w ++ [32] ++ [0] ++
        List.drop (T.length + (w ++ [32] ++ [0]).length) t.mem) =
        (T ++ (w ++ [32])) ++ ([0] ++ List.drop (T.length + (w ++ [32] ++ [0]).length) t.mem) := by
      rw [hT]; simp
    have hl2 : (List.drop (T.length + (w ++ [32] ++ [0]).length) t.mem).length =
        cap - (T.length + (w.length + 2)) := by simp [h1]
    rw [hm]
    generalize List.drop (T.length + (w ++ [32] ++ [0]).length) t.mem = r at hl2
    refine ⟨?_, ?_, ?_, fun _ => List.take_left' rfl, ?_⟩
    · show (T ++ (w ++ [32]) ++ ([0] ++ r)).length = cap
      rw [List.length_append, hlen, List.length_append, hl2, List.length_singleton]; omega
    · simp
    · rw [hlen]; omega
    · exact List.take_append_of_le_length (by omega)
  · -- the blank is cut off: the NUL takes its place
    have hcap : cap = T.length + (w.length + 1) := by omega
    have ht : (w ++ [32]).take (cap - T.length - 1) = w := by
      rw [show cap - T.length - 1 = w.length from by omega, List.take_left]
    rw [ht, store, if_pos (by simp; omega)]
    refine ⟨_, rfl, ?_⟩
    have hlen : (T ++ (w ++ [32])).length = T.length + (w.length + 1) := by simp
    refine ⟨?_, ?_, ?_, ?_, ?_⟩
    · simp only [List.length_append, List.length_take, List.length_drop, List.length_cons,
        List.length_nil]; omega
    · simp
    · rw [hlen]; omega
    · rw [hlen]; intro hx; omega
    · rw [hlen, show T.length + (w.length + 1) - 1 = (T ++ w).length from by simp, hT,
        List.append_assoc w, ← List.append_assoc T w, List.take_left, ← List.append_assoc T w,
        List.take_left]

/-- the loop, when the kept words fit and the names of the others are known -/
theorem loop_holds (p : Parser) (cap : Nat) : ∀ ws t as T,
    Holds t cap T →
    (T ++ text (ws.filter (fun w => !p.isAttr (splitEq w).1))).length ≤ cap →
    (p.needsValue = true → ∀ w ∈ ws, p.isAttr (splitEq w).1 = false → (splitEq w).2.isSome) →
    match attrsOf (ws.filter (fun w => p.isAttr (splitEq w).1)) with
    | some bs => ∃ t', loop p t as ws = some (some (t', as ++ bs)) ∧
        Holds t' cap (T ++ text (ws.filter (fun w => !p.isAttr (splitEq w).1)))
    | none => loop p t as ws = some none := by
  intro ws
  induction ws with
  | nil =>
    intro t as T h _ _
    exact ⟨t, by simp [loop], by simpa [text] using h⟩
  | cons w ws ih =>
    intro t as T h hle hv
    have hv' : p.needsValue = true → ∀ w ∈ ws, p.isAttr (splitEq w).1 = false → (splitEq w).2.isSome :=
      fun hn x hx => hv hn x (List.mem_cons_of_mem _ hx)
    cases ha : p.isAttr (splitEq w).1 with
    | true =>
      simp only [List.filter_cons, ha, Bool.not_true, if_true] at hle ⊢
      rw [loop]
      simp only [ha, if_true]
      simp only [Bool.false_eq_true, if_false] at hle ⊢
      rw [attrsOf]
      cases hid : attrStr2Id (splitEq w).1 with
      | none => rfl
      | some id =>
        have := ih t (as ++ [(id, (splitEq w).2)]) T h hle hv'
        cases hb : attrsOf (ws.filter (fun w => p.isAttr (splitEq w).1)) with
        | none => rw [hb] at this; exact this
        | some bs =>
          rw [hb] at this
          simpa [List.append_assoc] using this
    | false =>
      simp only [List.filter_cons, ha, Bool.not_false, if_true] at hle ⊢
      simp only [Bool.false_eq_true, if_false]
      have e : text (w :: ws.filter (fun w => !p.isAttr (splitEq w).1)) =
          (w ++ [32]) ++ text (ws.filter (fun w => !p.isAttr (splitEq w).1)) := by simp [text]
      rw [e] at hle ⊢
      obtain ⟨t', h1, h2⟩ := snprintf_holds h w (by
        simp only [List.length_append] at hle ⊢; omega)
      rw [← List.append_assoc] at hle ⊢
      have hnv : (p.needsValue && (splitEq w).2.isNone) = false := by
        cases hn : p.needsValue
        · rfl
        · have := hv hn w (List.mem_cons_self ..) ha
          cases hx : (splitEq w).2
          · rw [hx] at this; cases this
          · rfl
      have := ih t' as _ h2 hle hv'
      rw [loop]
      simp only [ha, Bool.false_eq_true, if_false, hnv, fmt_splitEq, h1]
      exact this

theorem text_dropLast (w : List Nat) : ∀ ws, (text (w :: ws)).dropLast = joinWords (w :: ws) := by
  intro ws
  induction ws generalizing w with
  | nil => simp [text, joinWords]
  | cons v ws ih =>
    have e : text (w :: v :: ws) = (w ++ [32]) ++ text (v :: ws) := by simp [text]
    have hne : text (v :: ws) ≠ [] := by simp [text]
    rw [e, List.dropLast_append_of_ne_nil hne, ih v, joinWords, List.append_assoc]
    rfl

theorem joinWords_no_nul : ∀ ws : List (List Nat), (∀ w ∈ ws, ∀ b ∈ w, b ≠ 0) →
    ∀ b ∈ joinWords ws, b ≠ 0 := by
  intro ws
  induction ws with
  | nil => intro _ b hb; cases hb
  | cons w ws ih =>
    intro h b hb
    cases ws with
    | nil => exact h w (List.mem_cons_self ..) b hb
    | cons v ws =>
      rw [joinWords] at hb
      rcases List.mem_append.1 hb with hb | hb
      · exact h w (List.mem_cons_self ..) b hb
      · rcases List.mem_cons.1 hb with hb | hb
        · subst hb; decide
        · exact ih (fun x hx => h x (List.mem_cons_of_mem _ hx)) b hb

theorem cstr_append (a r : List Nat) (h : ∀ b ∈ a, b ≠ 0) : cstr (a ++ (0 :: r)) = a := by
  induction a with
  | nil => rfl
  | cons x a ih =>
    have hx : (x != 0) = true := by simpa using h x (List.mem_cons_self ..)
    have := ih (fun b hb => h b (List.mem_cons_of_mem _ hb))
    simp only [cstr, List.cons_append, List.takeWhile_cons, hx, if_true] at this ⊢
    rw [this]

/-- **C34, general.**  If the words kept for the string attribute, each with a blank, fit in the
scratch buffer and there is at least one, then for every line and every previous content of the
buffer: nothing is written outside the buffer; the string attribute is exactly the kept words in
order, joined by blanks; the attributes are the taken words in order, or the line is refused with
`EINVAL` if one of their names is unknown. -/
theorem args_kept (p : Parser) (junk line : List Nat) (hnul : ∀ b ∈ line, b ≠ 0)
    (hj : junk.length = line.length + p.extra)
    (hv : p.needsValue = true → ∀ w ∈ kept p line, (splitEq w).2.isSome)
    (hfit : room (kept p line) ≤ line.length + p.extra) (hne : kept p line ≠ []) :
    parse p junk line =
      match attrsOf (taken p line) with
      | some as => .ok as (some (joinWords (kept p line)))
      | none => .einval := by
  have h0 : Holds ⟨junk, 0⟩ (line.length + p.extra) [] :=
    ⟨hj, rfl, Nat.zero_le _, fun _ => rfl, rfl⟩
  have := loop_holds p _ (words line) ⟨junk, 0⟩ [] [] h0
    (by rw [List.nil_append, text_length]; exact hfit)
    (fun hn w hw ha => hv hn w (List.mem_filter.2 ⟨hw, by simp [ha]⟩))
  rw [show (words line).filter (fun w => p.isAttr (splitEq w).1) = taken p line from rfl,
    show (words line).filter (fun w => !p.isAttr (splitEq w).1) = kept p line from rfl] at this
  rw [parse]
  cases hb : attrsOf (taken p line) with
  | none =>
    rw [hb] at this
    simp only [this]
  | some bs =>
    rw [hb] at this
    obtain ⟨t, h1, h2⟩ := this
    rw [List.nil_append] at h1 h2
    simp only [h1]
    match hk : kept p line, hne with
    | w :: ws, _ =>
    rw [hk] at h2
    have hpos : 0 < (text (w :: ws)).length := by simp [text]; omega
    rw [if_neg (by rw [h2.cnt]; omega), h2.cnt, store, if_pos (by
      rw [h2.len]; have := h2.le; simp; omega)]
    have hmost := h2.most
    rw [hmost, ← List.dropLast_eq_take, text_dropLast]
    simp only [List.singleton_append]
    rw [cstr_append]
    apply joinWords_no_nul
    intro x hx b hb'
    have hxm : x ∈ words line := (List.mem_filter.1 (show x ∈ kept p line by rw [hk]; exact hx)).1
    exact (wordsAux_mem line [] hnul (by simp) x hxm).2 b hb'

theorem kept_room (p : Parser) (line : List Nat) :
    room (kept p line) + room (taken p line) ≤ line.length + 1 := by
  have := words_room line
  have h2 := room_filter (fun w => p.isAttr (splitEq w).1) (words line)
  have h3 : room (kept p line) = room ((words line).filter (fun w => !p.isAttr (splitEq w).1)) := rfl
  have h4 : room (taken p line) = room ((words line).filter (fun w => p.isAttr (splitEq w).1)) := rfl
  omega

theorem room_pos {ws : List (List Nat)} (h : ws ≠ []) : 1 ≤ room ws := by
  cases ws with
  | nil => exact absurd rfl h
  | cons w ws => simp [room]; omega

/-- **C34, `config` lines.**  Every `config` line with at least one word starting with "name" and at
least one other word is encoded inside its buffer, and the encoded string holds exactly the other
words, in order. -/
theorem plugin_config_args_partial (junk line : List Nat) (hnul : ∀ b ∈ line, b ≠ 0)
    (hj : junk.length = line.length) (ht : taken pluginConfig line ≠ [])
    (hk : kept pluginConfig line ≠ []) :
    parse pluginConfig junk line =
      match attrsOf (taken pluginConfig line) with
      | some as => .ok as (some (joinWords (kept pluginConfig line)))
      | none => .einval := by
  have h1 := kept_room pluginConfig line
  have h2 := room_pos ht
  exact args_kept pluginConfig junk line hnul hj (fun h => by cases h)
    (by show _ ≤ line.length + 0; omega) hk

/-- **C34, `env` lines.**  Every `env` line with at least one word is encoded inside its buffer and
holds exactly its words. -/
theorem env_args_partial (junk line : List Nat) (hnul : ∀ b ∈ line, b ≠ 0)
    (hj : junk.length = line.length + 1) (hk : words line ≠ []) :
    parse env junk line = .ok [] (some (joinWords (words line))) := by
  have e : kept env line = words line := List.filter_eq_self.2 (fun _ _ => rfl)
  have e2 : taken env line = [] := List.filter_eq_nil_iff.2 (fun _ _ => by simp [env])
  have h1 := kept_room env line
  have := args_kept env junk line hnul hj (fun h => by cases h)
    (by show _ ≤ line.length + 1; omega) (by rw [e]; exact hk)
  rw [e, e2] at this
  exact this

/-- **C34, `listen` lines.**  Every `listen` line with at least one endpoint word and at least one
other word is encoded inside its buffer with all its words. -/
theorem listen_args_partial (junk line : List Nat) (hnul : ∀ b ∈ line, b ≠ 0)
    (hj : junk.length = line.length) (ht : taken listen line ≠ []) (hk : kept listen line ≠ []) :
    parse listen junk line =
      match attrsOf (taken listen line) with
      | some as => .ok as (some (joinWords (kept listen line)))
      | none => .einval := by
  have h1 := kept_room listen line
  have h2 := room_pos ht
  exact args_kept listen junk line hnul hj (fun h => by cases h)
    (by show _ ≤ line.length + 0; omega) hk

/-- **C34, `auth_add` lines.** -/
theorem auth_add_args_partial (junk line : List Nat) (hnul : ∀ b ∈ line, b ≠ 0)
    (hj : junk.length = line.length) (ht : taken authAdd line ≠ []) (hk : kept authAdd line ≠ [])
    (hv : ∀ w ∈ kept authAdd line, (splitEq w).2.isSome) :
    parse authAdd junk line =
      match attrsOf (taken authAdd line) with
      | some as => .ok as (some (joinWords (kept authAdd line)))
      | none => .einval := by
  have h1 := kept_room authAdd line
  have h2 := room_pos ht
  exact args_kept authAdd junk line hnul hj (fun _ => hv)
    (by show _ ≤ line.length + 0; omega) hk

/-- **C34, `default_auth` lines.** -/
theorem default_auth_args_partial (junk line : List Nat) (hnul : ∀ b ∈ line, b ≠ 0)
    (hj : junk.length = line.length) (ht : taken defaultAuth line ≠ [])
    (hk : kept defaultAuth line ≠ []) :
    parse defaultAuth junk line =
      match attrsOf (taken defaultAuth line) with
      | some as => .ok as (some (joinWords (kept defaultAuth line)))
      | none => .einval := by
  have h1 := kept_room defaultAuth line
  have h2 := room_pos ht
  exact args_kept defaultAuth junk line hnul hj (fun h => by cases h)
    (by show _ ≤ line.length + 0; omega) hk

/-- "name=meminfo producer=vm1  instance=i" -/
example : parse pluginConfig (List.replicate 37 7) (codes "name=meminfo producer=vm1  instance=i") =
    .ok [(1, some (codes "meminfo"))] (some (codes "producer=vm1 instance=i")) := by decide +kernel

example : taken pluginConfig (codes "name=a b=c") ≠ [] ∧ kept pluginConfig (codes "name=a b=c") ≠ [] := by
  decide +kernel

/-- **C34, defect.**  A line whose words are all attributes of their own leaves `cnt` at 0, and
`tmp[cnt-1]` is a write before the buffer: for `config name=meminfo` and
`default_auth plugin=munge`, and for a blank `env` line. -/
theorem args_only_attrs_defect (p : Parser) (hp : p.guarded = false) (junk line : List Nat)
    (hk : kept p line = []) (ha : (attrsOf (taken p line)).isSome)
    (hj : junk.length = line.length + p.extra) :
    parse p junk line = .ub := by
  have h0 : Holds ⟨junk, 0⟩ (line.length + p.extra) [] :=
    ⟨hj, rfl, Nat.zero_le _, fun _ => rfl, rfl⟩
  have hk' : (words line).filter (fun w => !p.isAttr (splitEq w).1) = [] := hk
  have := loop_holds p _ (words line) ⟨junk, 0⟩ [] [] h0
    (by rw [hk']; exact Nat.zero_le _)
    (fun _ w hw hf => by
      have : w ∈ (words line).filter (fun w => !p.isAttr (splitEq w).1) :=
        List.mem_filter.2 ⟨hw, by simp [hf]⟩
      rw [hk'] at this; cases this)
  rw [show (words line).filter (fun w => p.isAttr (splitEq w).1) = taken p line from rfl, hk'] at this
  obtain ⟨bs, hb⟩ := Option.isSome_iff_exists.1 ha
  rw [hb] at this
  obtain ⟨t, h1, h2⟩ := this
  rw [parse]
  simp only [h1]
  rw [if_pos (by rw [h2.cnt]; rfl), hp]
  rfl

theorem config_name_only_defect :
    ∀ junk : List Nat, junk.length = 12 → parse pluginConfig junk (codes "name=meminfo") = .ub := by
  intro junk hj
  exact args_only_attrs_defect pluginConfig rfl junk _ (by decide +kernel) (by decide +kernel)
    (by rw [hj]; decide)

theorem default_auth_plugin_only_defect :
    ∀ junk : List Nat, junk.length = 12 → parse defaultAuth junk (codes "plugin=munge") = .ub := by
  intro junk hj
  exact args_only_attrs_defect defaultAuth rfl junk _ (by decide +kernel) (by decide +kernel)
    (by rw [hj]; decide)

/-- **C34, defect.**  With no word taken out, a line without spare blanks needs one byte more than
the buffer has: the terminating NUL is written past its end. -/
theorem args_overrun_defect :
    parse pluginConfig (List.replicate 7 0) (codes "a=b c=d") = .ub ∧
    parse listen (List.replicate 7 0) (codes "a=b c=d") = .ub ∧
    parse authAdd (List.replicate 7 0) (codes "a=b c=d") = .ub := by decide +kernel

/-- **C34, defect.**  The attribute names are compared by prefix, so a plugin argument whose name
merely starts with "name" is not passed on: the whole line is refused. -/
theorem args_prefix_refused_defect :
    parse pluginConfig (List.replicate 24 0) (codes "name=a namespace=x b=c d") = .einval := by
  decide +kernel

end Verif.CfgArgs
