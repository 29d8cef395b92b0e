import Verif.LabelSet.Proofs

/-!
# C83: label sets give each label its own legal identifier
-/

namespace Verif.LabelSet

/-- **An identifier that is returned is new**: no pair of the set has it, the label was not in the set, and the set has the pair from then on, after
those that it had.  (Labels with the hash 0: `no_hash_defect`.) -/
theorem fresh {H : Str → Nat} {s s' : LSet} {l i : Str} (h : insert H s l = .ok (s', some i)) :
    i ∉ s.items.map Prod.snd ∧ l ∉ s.items.map Prod.fst ∧ i ≠ [] ∧ l ≠ [] ∧
      (H l ≠ 0 → s' = ⟨s.lang, s.max, s.items ++ [(l, i)]⟩) := by
  rw [insert] at h
  split at h
  · cases h
  · rename_i h0
    split at h
    · cases h
    · rename_i h1
      split at h
      · cases h
      · cases h
      · rename_i c t ht
        cases h
        refine ⟨?_, h1, by simp, h0, fun hh => by rw [if_neg hh]⟩
        rcases toId_cases ht with ⟨-, f, -, u, -, -, h2⟩ | ⟨-, ⟨-, h2⟩ | ⟨h2, -⟩⟩
        · exact h2
        · exact h2
        · cases h2

/-- **Nothing changes when nothing is returned**, and a label of the set gets no second identifier. -/
theorem refused {H : Str → Nat} {s : LSet} {l : Str} :
    (∀ s', insert H s l = .ok (s', none) → s' = s) ∧ (l ∈ s.items.map Prod.fst → insert H s l = .ok (s, none)) ∧ insert H s [] = .ok (s, none) := by
  refine ⟨?_, ?_, by rw [insert, if_pos rfl]⟩
  · intro s' h
    rw [insert] at h
    split at h
    · cases h; rfl
    · split at h
      · cases h; rfl
      · split at h
        · cases h
        · cases h; rfl
        · cases h
  · intro h
    have hl : l ∈ labels s := h
    rw [insert]
    split
    · rfl
    · rfl

theorem insertAll_spec {H : Str → Nat} : ∀ {ls : List Str} {s s' : LSet} {rs : List (Option Str)},
    (∀ l ∈ ls, H l ≠ 0) → (labels s).Nodup → (ids s).Nodup → insertAll H s ls = .ok (s', rs) →
    rs.length = ls.length ∧ s'.items = s.items ++ (ls.zip rs).filterMap (fun p => p.2.map (p.1, ·)) ∧ (labels s').Nodup ∧ (ids s').Nodup ∧
      s'.lang = s.lang ∧ s'.max = s.max
  | [], s, s', rs, _, h1, h2, h => by cases h; simp [h1, h2]
  | l :: ls, s, s', rs, hH, h1, h2, h => by
    rw [insertAll] at h
    split at h
    · cases h
    · rename_i s1 r hi
      split at h
      · cases h
      · rename_i s2 rs2 hr
        cases h
        cases r with
        | none =>
          obtain rfl := refused.1 _ hi
          obtain ⟨a, b, c, d, e⟩ := insertAll_spec (fun x hx => hH x (by simp [hx])) h1 h2 hr
          exact ⟨by simp [a], by simpa using b, c, d, e⟩
        | some i =>
          obtain ⟨f1, f2, -, -, f3⟩ := fresh hi
          obtain rfl := f3 (hH l (by simp))
          have n1 : (labels ⟨s.lang, s.max, s.items ++ [(l, i)]⟩).Nodup := by
            simp only [labels, List.map_append, List.map_cons, List.map_nil]
            rw [List.nodup_append]
            refine ⟨h1, by simp, ?_⟩
            intro a ha b hb
            simp at hb
            subst hb
            intro e
            subst e
            exact f2 ha
          have n2 : (ids ⟨s.lang, s.max, s.items ++ [(l, i)]⟩).Nodup := by
            simp only [ids, List.map_append, List.map_cons, List.map_nil]
            rw [List.nodup_append]
            refine ⟨h2, by simp, ?_⟩
            intro a ha b hb
            simp at hb
            subst hb
            intro e
            subst e
            exact f1 ha
          obtain ⟨a, b, c, d, e⟩ := insertAll_spec (fun x hx => hH x (by simp [hx])) n1 n2 hr
          exact ⟨by simp [a], by simpa using b, c, d, e⟩

/-- **However many labels are inserted, no two of them share an identifier**: the set has exactly the labels that were given one, each once, with what
was returned for it, in the order of the insertions, and the identifiers differ. -/
theorem label_set_partial {H : Str → Nat} {lang : Lang} {max : Nat} {ls : List Str} {s : LSet} {rs : List (Option Str)} (hH : ∀ l ∈ ls, H l ≠ 0)
    (h : insertAll H (create lang max) ls = .ok (s, rs)) :
    rs.length = ls.length ∧ s.items = (ls.zip rs).filterMap (fun p => p.2.map (p.1, ·)) ∧
      (s.items.map Prod.fst).Nodup ∧ (s.items.map Prod.snd).Nodup ∧ size s = (rs.filter Option.isSome).length := by
  obtain ⟨a, b, c, d, -⟩ := insertAll_spec (s := create lang max) hH (by simp [labels, create]) (by simp [ids, create]) h
  refine ⟨a, by simpa [create] using b, c, d, ?_⟩
  have hb : s.items = (ls.zip rs).filterMap (fun p => p.2.map (p.1, ·)) := by simpa [create] using b
  rw [size, hb]
  clear b hb h c d hH
  induction ls generalizing rs with
  | nil => cases rs <;> simp_all
  | cons l ls ih =>
    cases rs with
    | nil => simp at a
    | cons r rs =>
      have := ih (rs := rs) (by simpa using a)
      cases r <;> simp [this]

/-- three labels that look alike in C: the second and the third get other texts -/
example : (insertAll (fun _ => 7) (create .c 0) [[97, 32, 98], [97, 46, 98], [97, 95, 98], [97, 32, 98]]).map (·.2) =
    .ok [some [97, 95, 98], some [97, 100, 98], some [97, 95, 98, 55], none] := by
  simp [insertAll, insert, create, labels, ids, toId, tries, attempt, ubar, ubarLoop, isalnum, iscntrl, ispunct, isspace, shorten, alnum, munged, munge, hex, decimal, Except.map]

/-- **Identifiers have the alphabet of their language**, whatever the label: letters, digits and `_`, for URLs also `%`, and for AMQP anything without a dot. -/
theorem alphabet {H : Str → Nat} {s s' : LSet} {l i : Str} (h : insert H s l = .ok (s', some i)) : ∀ c ∈ i, Alphabet s.lang c := by
  have hp : ∀ c, Plain c → Alphabet s.lang c := by
    intro c hc
    cases s.lang <;> first | exact hc | exact .inl hc | skip
    show c ≠ 46
    unfold Plain Alnum at hc
    omega
  rw [insert] at h
  split at h
  · cases h
  · split at h
    · cases h
    · split at h
      · cases h
      · cases h
      · rename_i c t ht
        cases h
        rcases toId_cases ht with ⟨-, f, hf, u, hu, h2, -⟩ | ⟨-, ⟨h2, -⟩ | ⟨h2, -⟩⟩
        · rw [h2]
          exact shorten_mem (tries_alphabet f hf u hu) fun c hc => hp c (.inl hc)
        · rw [h2]
          intro x hx
          rcases List.mem_append.1 hx with hx | hx
          · exact hp x (alnum_plain x hx)
          · exact hp x (.inl (decimal_alnum _ x hx))
        · cases h2

example : (insert (fun _ => 7) (create .url 0) [97, 47, 98]).map (·.2) = .ok (some [97, 37, 50, 70, 98]) := by
  simp [insert, create, labels, ids, toId, tries, attempt, hex, isalnum, iscntrl, ispunct, isspace, shorten, Except.map, hexByte, hexDigit]

/-- **Identifiers keep to the limit**, if it is 12 or more: those that do not, end with the digits of the label's hash (`last_resort_defect`), and they only are
given when there already are other pairs. -/
theorem length_partial {H : Str → Nat} {s s' : LSet} {l i : Str} (hm : 12 ≤ s.max) (h : insert H s l = .ok (s', some i)) :
    i.length ≤ s.max ∨ (s.items ≠ [] ∧ ∃ u d, i = u ++ d ∧ d ≠ [] ∧ (∀ c ∈ d, Alnum c) ∧ valueOf d = H l) := by
  rw [insert] at h
  split at h
  · cases h
  · rename_i hl
    split at h
    · cases h
    · split at h
      · cases h
      · cases h
      · rename_i c t ht
        cases h
        rcases toId_cases ht with ⟨-, f, hf, u, hu, h2, -⟩ | ⟨hn, ⟨h2, -⟩ | ⟨h2, -⟩⟩
        · left; rw [h2]; exact shorten_length hm
        · right
          refine ⟨?_, _, _, h2, decimal_ne _, decimal_alnum _, decimal_value _⟩
          intro he
          have := attempt_none (tries_ne hl) hn
          cases hfs : tries s.lang with
          | nil => cases hl : s.lang <;> rw [hl] at hfs <;> cases hfs
          | cons f fs =>
            obtain ⟨u, -, hu⟩ := this f (by simp [hfs])
            simp [ids, he] at hu
        · cases h2

/-- **A label that is an identifier already stays as it is**, if no pair has it and it keeps to the limit. -/
theorem clean {H : Str → Nat} {s : LSet} {l : Str} (hc : Clean s.lang l) (hl : l.length ≤ s.max) (h1 : l ∉ s.items.map Prod.fst)
    (h2 : l ∉ s.items.map Prod.snd) : ∃ s', insert H s l = .ok (s', some l) := by
  obtain ⟨h0, hp, h95⟩ := hc
  have h1 : l ∉ labels s := h1
  have h2 : l ∉ ids s := h2
  have ht : toId H s l = .ok l := by
    have : attempt (ids s) s.max (H l) l (tries s.lang) = .ok l := by
      have hf : ∀ f fs, f l = .ok l → attempt (ids s) s.max (H l) l (f :: fs) = .ok l := by
        intro f fs hf
        rw [attempt, hf]
        dsimp only
        rw [shorten_id hl, if_neg h2]
      cases hlang : s.lang <;> rw [hlang] at hp h95 <;> rw [tries] <;> apply hf
      · exact congrArg _ (alnum_clean hp fun _ => h95 (by simp))
      · exact ubar_clean hp (by simp)
      · exact hex_clean hp
      · exact ubar_clean hp fun _ => h95 (by simp)
      · exact ubar_clean hp (by simp)
      · have : amqp l = l := by
          unfold amqp
          exact (List.map_congr_left fun c hcm => if_neg (hp c hcm)).trans (List.map_id' l)
        exact congrArg _ this
      · exact hex_clean hp
    rw [toId, this]
    simp only
    rw [if_neg h0]
  rw [insert, if_neg h0, if_neg h1, ht]
  cases l with
  | nil => exact absurd rfl h0
  | cons c t => exact ⟨_, rfl⟩

example : Clean .r [97, 95, 49] := by
  refine ⟨by simp, ?_, by simp⟩
  intro c hc
  simp at hc
  unfold Plain Alnum
  omega

/-- **Every new label is given an identifier**, unless an identifier of the set ends with the digits of its hash.  (Bytes from 128 on: `ascii_defect`.) -/
theorem served_partial {H : Str → Nat} {s : LSet} {l : Str} (h0 : l ≠ []) (h1 : l ∉ s.items.map Prod.fst) (ha : Ascii s.lang → ∀ c ∈ l, c < 128)
    (hd : ∀ i ∈ s.items.map Prod.snd, ∀ u d, i = u ++ d → d ≠ [] → (∀ c ∈ d, Alnum c) → valueOf d ≠ H l) :
    ∃ s' i, insert H s l = .ok (s', some i) := by
  have h1 : l ∉ labels s := h1
  rw [insert, if_neg h0, if_neg h1]
  obtain ⟨t, ht⟩ := attempt_ok (ids := ids s) (max := s.max) (hash := H l) (tries_ok ha)
  have : ∃ t, toId H s l = .ok t := by
    rw [toId, ht]
    dsimp only
    split
    · exact ⟨_, rfl⟩
    · exact ⟨_, rfl⟩
  obtain ⟨u, hu⟩ := this
  rw [hu]
  cases u with
  | cons c u => exact ⟨_, _, rfl⟩
  | nil =>
    rcases toId_cases hu with ⟨h, -⟩ | ⟨-, ⟨h, -⟩ | ⟨-, h⟩⟩
    · exact absurd rfl h
    · exact absurd (List.append_eq_nil_iff.1 h.symm).2 (decimal_ne _)
    · exact absurd (decimal_value _) (hd _ h _ _ rfl (decimal_ne _) (decimal_alnum _))

/-- **In Python and C every other sign becomes `_`**, if that is free and keeps to the limit. -/
theorem barred {H : Str → Nat} {s : LSet} {l : Str} (hs : s.lang = .python ∨ s.lang = .c) (h0 : l ≠ []) (ha : ∀ c ∈ l, c < 128)
    (hl : l.length ≤ s.max) (h1 : l ∉ s.items.map Prod.fst) (h2 : Barred l ∉ s.items.map Prod.snd) :
    ∃ s', insert H s l = .ok (s', some (Barred l)) := by
  have h1 : l ∉ labels s := h1
  have h2 : Barred l ∉ ids s := h2
  have hb : ubar false l = .ok (Barred l) := by
    obtain ⟨t, ht⟩ := ubar_ascii (b := false) |>.2 ha
    have : ubarLoop l = .ok t := by
      cases l with
      | nil => exact absurd rfl h0
      | cons c l => simpa [ubar] using ht
    rw [ht, ubarLoop_barred this]
  have hlen : ∀ l : Str, (Barred l).length = l.length := by
    intro l
    induction l with
    | nil => rfl
    | cons c l ih => simp [Barred, ih]
  have hf : attempt (ids s) s.max (H l) l (tries s.lang) = .ok (Barred l) := by
    rcases hs with hs | hs <;> rw [hs, tries, attempt, hb] <;> dsimp only <;> rw [shorten_id (by rw [hlen]; exact hl), if_neg h2]
  rw [insert, if_neg h0, if_neg h1, toId, hf]
  cases l with
  | nil => exact absurd rfl h0
  | cons c t =>
    have hne : Barred (c :: t) ≠ [] := by simp [Barred]
    dsimp only
    rw [if_neg hne]
    exact ⟨_, rfl⟩

example : Barred [97, 46, 32, 49] = [97, 95, 95, 49] := by decide

/-- **In URLs and file names the signs are written as their numbers**, in hexadecimal: the first label of a set gets such a text, if it keeps to the limit. -/
theorem hexadecimal {H : Str → Nat} {s : LSet} {l : Str} (hs : s.lang = .url ∨ s.lang = .file) (he : s.items = []) (h0 : l ≠ []) (ha : ∀ c ∈ l, c < 128) :
    ∃ t, HexText (if s.lang = .url then 37 else 95) l t ∧ (t.length ≤ s.max → ∃ s', insert H s l = .ok (s', some t)) := by
  obtain ⟨t, ht⟩ := hex_ascii (sep := if s.lang = .url then 37 else 95) (first := false) (p := .word) |>.2 ha
  refine ⟨t, hex_text ht, fun hl => ?_⟩
  have hne := (hex_alphabet ht).2 h0
  have hf : attempt (ids s) s.max (H l) l (tries s.lang) = .ok t := by
    have hi : t ∉ ids s := by simp [ids, he]
    rcases hs with hs | hs <;> rw [hs] at ht <;> rw [hs, tries, attempt]
    · rw [if_pos rfl] at ht
      rw [ht]; dsimp only; rw [shorten_id hl, if_neg hi]
    · rw [if_neg (by decide)] at ht
      rw [ht]; dsimp only; rw [shorten_id hl, if_neg hi]
  rw [insert, if_neg h0, if_neg (by simp [labels, he]), toId, hf]
  dsimp only
  rw [if_neg hne]
  cases t with
  | nil => exact absurd rfl hne
  | cons c t => exact ⟨_, rfl⟩

/-- **A long label is cut, and its hash is put at the end in twelve letters and digits; different hashes have different ones.** -/
theorem shortened {H : Str → Nat} {s : LSet} {l : Str} (hs : s.lang = .amqp) (hd : 46 ∉ l) (hm : 12 ≤ s.max) (hl : s.max < l.length) (he : s.items = []) :
    ∃ s' e, insert H s l = .ok (s', some (l.take (s.max - 12) ++ e)) ∧ e.length = 12 ∧ (∀ c ∈ e, Alnum c) ∧
      ∀ l' : Str, 46 ∉ l' → s.max < l'.length → H l < 2 ^ 64 → H l' < 2 ^ 64 → (∃ s'', insert H s l' = .ok (s'', some (l'.take (s.max - 12) ++ e))) → H l' = H l := by
  have key : ∀ l : Str, 46 ∉ l → s.max < l.length → ∃ s', insert H s l = .ok (s', some (l.take (s.max - 12) ++ encode (H l))) := by
    intro l hd hl
    have h0 : l ≠ [] := by intro e; subst e; simp at hl
    have hid : amqp l = l := by
      unfold amqp
      exact (List.map_congr_left fun c hcm => if_neg (fun e : c = 46 => hd (e ▸ hcm))).trans (List.map_id' l)
    have hsh : shorten s.max (H l) l = l.take (s.max - 12) ++ encode (H l) := by
      unfold shorten; rw [if_neg (by omega), if_neg (by omega)]
    have hne : l.take (s.max - 12) ++ encode (H l) ≠ [] := hsh ▸ shorten_ne h0
    rw [insert, if_neg h0, if_neg (by simp [labels, he]), toId, hs, tries, attempt]
    dsimp only
    rw [hid, hsh, if_neg (by simp [ids, he])]
    dsimp only
    rw [if_neg hne]
    cases ht : l.take (s.max - 12) ++ encode (H l) with
    | nil => exact absurd ht hne
    | cons c t => exact ⟨_, rfl⟩
  obtain ⟨s', h⟩ := key l hd hl
  refine ⟨s', encode (H l), h, encode_length, encode_alnum, ?_⟩
  rintro l' hd' hl' b1 b2 ⟨s'', h'⟩
  obtain ⟨s3, h3⟩ := key l' hd' hl'
  rw [h3] at h'
  injection h' with h'
  injection h' with _ h'
  injection h' with h'
  exact encode_inj b2 b1 (List.append_cancel_left h')

/-- **In R and the least language the identifiers do not begin with `_`** when the first translation is free: the label is the first of its set (`underscore_defect`). -/
theorem no_underscore_partial {H : Str → Nat} {s s' : LSet} {l i : Str} (hs : s.lang = .least ∨ s.lang = .r) (he : s.items = []) (ha : ∀ c ∈ l, c < 128)
    (h : insert H s l = .ok (s', some i)) : i.head? ≠ some 95 := by
  have h0 : l ≠ [] := (fresh h).2.2.2.1
  obtain ⟨c, l, rfl⟩ : ∃ c t, l = c :: t := by cases l with
    | nil => exact absurd rfl h0
    | cons c t => exact ⟨c, t, rfl⟩
  have hcl : c < 128 := ha c (by simp)
  have hmu : ∀ c < 128, c ≠ 95 → (munged c).head? ≠ some 95 := by decide +kernel
  have h117 : (munged 117).head? ≠ some 95 := by decide +kernel
  have key : ∃ f u, (tries s.lang).head? = some f ∧ f (c :: l) = .ok u ∧ u ≠ [] ∧ u.head? ≠ some 95 := by
    rcases hs with hs | hs <;> rw [hs, tries]
    · refine ⟨_, _, rfl, rfl, alnum_ne h0, ?_⟩
      rw [alnum]
      by_cases h5 : c = 95
      · subst h5
        simp only [BEq.rfl, Bool.and_self, if_true, List.head?_append]
        cases hx : munged 117 with
        | nil => exact absurd hx (munged_ne _)
        | cons a b => rw [hx] at h117; simpa using h117
      · have : (true && c == 95) = false := by simpa using h5
        rw [this]
        have := hmu c hcl h5
        simp only [Bool.false_eq_true, if_false, List.head?_append]
        cases hx : munged c with
        | nil => exact absurd hx (munged_ne _)
        | cons a b => rw [hx] at this; simpa using this
    · obtain ⟨u, hu⟩ := ubar_ascii (b := true) |>.2 ha
      refine ⟨_, u, rfl, hu, (ubar_plain hu).2 h0, ?_⟩
      rw [ubar] at hu
      split at hu
      · obtain ⟨v, -, rfl⟩ := map_ok hu
        simp
      · rename_i hn
        have := ubarLoop_barred hu
        subst this
        simp only [Barred, List.head?_cons]
        have hx : ∀ c < 128, ¬ (true && (c == 95 || iscntrl c || ispunct c || isspace c)) = true → Alnum c := by decide
        have hal := hx c hcl hn
        unfold Alnum at hal
        rw [if_pos hal]
        intro e
        injection e with e
        omega
  obtain ⟨f, u, hf, hu, hne, hh⟩ := key
  cases hfs : tries s.lang with
  | nil => rw [hfs] at hf; cases hf
  | cons g gs =>
    rw [hfs] at hf
    obtain rfl : g = f := by simpa using hf
    have hsh : (shorten s.max (H (c :: l)) u).head? ≠ some 95 := by
      unfold shorten
      split
      · exact hh
      · split
        · exact hh
        · rw [List.head?_append, List.head?_take]
          split
          · have : (encode (H (c :: l))).head? ≠ some 95 := by
              cases hx : encode (H (c :: l)) with
              | nil => simp
              | cons a b =>
                have hab := encode_alnum (v := H (c :: l)) a (by rw [hx]; simp)
                unfold Alnum at hab
                simp
                omega
            simpa using this
          · cases u with
            | nil => exact absurd rfl hne
            | cons a b => simpa using hh
    have ht : toId H s (c :: l) = .ok (shorten s.max (H (c :: l)) u) := by
      rw [toId, hfs, attempt, hu]
      dsimp only
      rw [if_neg (by simp [ids, he])]
      dsimp only
      rw [if_neg (shorten_ne hne)]
    rw [insert, if_neg h0, if_neg (by simp [labels, he]), ht] at h
    cases hx : shorten s.max (H (c :: l)) u with
    | nil => exact absurd hx (shorten_ne hne)
    | cons a b =>
      rw [hx] at h hsh
      cases h
      exact hsh

/-- **A pair of the client is put behind the others, unless the label is there**: then nothing changes. -/
theorem pairs {s s' : LSet} {l i : Str} {r : Option Str} (h : insertPair s l i = (s', r)) :
    (l ≠ [] ∧ l ∉ s.items.map Prod.fst ∧ r = some i ∧ s' = ⟨s.lang, s.max, s.items ++ [(l, i)]⟩) ∨
      ((l = [] ∨ l ∈ s.items.map Prod.fst) ∧ r = none ∧ s' = s) := by
  rw [insertPair] at h
  split at h
  · cases h; exact .inr ⟨.inl (by assumption), rfl, rfl⟩
  · split at h
    · rename_i h1
      cases h; exact .inr ⟨.inr h1, rfl, rfl⟩
    · rename_i h0 h1
      cases h; exact .inl ⟨h0, h1, rfl, rfl⟩

/-! ### what is not so -/

/-- The identifiers of such pairs are not looked at: any identifier of the set can be put in again. -/
theorem pairs_defect {s : LSet} {l i : Str} (h0 : l ≠ []) (h1 : l ∉ s.items.map Prod.fst) (hi : i ∈ s.items.map Prod.snd) :
    ∃ s', insertPair s l i = (s', some i) ∧ ¬ (s'.items.map Prod.snd).Nodup := by
  have h1' : l ∉ labels s := h1
  refine ⟨_, by rw [insertPair, if_neg h0, if_neg h1'], ?_⟩
  rw [List.map_append, List.nodup_append]
  rintro ⟨-, -, h⟩
  exact h i hi i (by simp) rfl

example : ∃ s', insertPair ⟨.c, 99, [([97], [98])]⟩ [99] [98] = (s', some [98]) ∧ ¬ (s'.items.map Prod.snd).Nodup :=
  pairs_defect (by decide) (by decide) (by decide)

/-- A label with a byte from 128 on makes the translation go on for ever, in every language that has one for ASCII only. -/
theorem ascii_defect {H : Str → Nat} {s : LSet} {l : Str} (hs : Ascii s.lang) (h1 : l ∉ s.items.map Prod.fst) {c : Nat} (hc : c ∈ l) (h : 128 ≤ c) :
    insert H s l = .error .hang := by
  have h0 : l ≠ [] := by intro e; subst e; simp at hc
  have h1 : l ∉ labels s := h1
  have hn : ¬ ∀ c ∈ l, c < 128 := fun hh => by have := hh c hc; omega
  have e : ∀ r : Out Str, (¬ ∃ t, r = .ok t) → r = .error .hang := by
    intro r hr
    cases r with
    | error x => cases x; rfl
    | ok t => exact absurd ⟨t, rfl⟩ hr
  have hu : ∀ b, ubar b l = .error .hang := fun b => e _ fun hh => hn (ubar_ascii.1 hh)
  have hh : ∀ sep, hex sep false .word l = .error .hang := fun sep => e _ fun hh => hn (hex_ascii.1 hh)
  rw [insert, if_neg h0, if_neg h1, toId]
  cases hl : s.lang <;> rw [hl] at hs <;> first | exact absurd hs (fun h => h) | skip
  all_goals rw [tries, attempt]
  all_goals first | rw [hu] | rw [hh]

/-- A label whose hash is 0 is given an identifier that is not kept: the set stays as it was, and another label can be given the same one. -/
theorem no_hash_defect {H : Str → Nat} {s s' : LSet} {l : Str} {r : Option Str} (hH : H l = 0) (h : insert H s l = .ok (s', r)) : s' = s := by
  rw [insert] at h
  split at h
  · cases h; rfl
  · split at h
    · cases h; rfl
    · split at h
      · cases h
      · cases h; rfl
      · cases h; rfl

example : (insertAll (fun l => if l = [97, 46] then 0 else 7) (create .amqp 0) [[97, 46], [97, 111]]).map (·.2) = .ok [some [97, 111], some [97, 111]] := by
  simp [insertAll, insert, create, labels, ids, toId, tries, attempt, amqp, shorten, Except.map]

/-- A limit below 12 is ignored. -/
theorem small_limit_defect {H : Str → Nat} {max : Nat} {l : Str} (h0 : 0 < max) (h : max < 12) (hl : l ≠ []) (hd : 46 ∉ l) :
    ∃ s', insert H (create .amqp max) l = .ok (s', some l) := by
  have hid : amqp l = l := by
    unfold amqp
    exact (List.map_congr_left fun c hcm => if_neg (fun e : c = 46 => hd (e ▸ hcm))).trans (List.map_id' l)
  have hsh : shorten max (H l) l = l := by unfold shorten; split <;> simp
  rw [insert, if_neg hl, if_neg (by simp [labels, create]), toId]
  simp only [create, if_neg (by omega : ¬ max = 0), tries, attempt, hid, hsh, ids, List.map_nil, List.not_mem_nil, if_false, if_neg hl]
  cases l with
  | nil => exact absurd rfl hl
  | cons c t => exact ⟨_, rfl⟩

/-- The last resort ignores the limit: with a limit of 12, the second of two long labels that differ only by a dot and have the same hash gets 14 bytes. -/
theorem last_resort_defect : (insertAll (fun _ => 7) (create .amqp 12) [[97, 97, 97, 97, 97, 97, 97, 97, 97, 97, 97, 97, 46], [97, 97, 97, 97, 97, 97, 97, 97, 97, 97, 97, 97, 111]]).map
    (fun p => p.2.map (Option.map List.length)) = .ok [some 12, some 14] := by
  simp [insertAll, insert, create, labels, ids, toId, tries, attempt, amqp, shorten, alnum, munged, munge, decimal, Except.map, encode, digits62, tab62, byte]

/-- Identifiers can begin with a digit, in C, Python and R too. -/
theorem digit_defect : ∀ lang, (insert (fun _ => 7) (create lang 0) [49, 97]).map (·.2) = .ok (some [49, 97]) := by
  intro lang
  obtain ⟨s', h⟩ := clean (H := fun _ => 7) (s := create lang 0) (l := [49, 97])
    (by
      refine ⟨by simp, ?_, by simp⟩
      cases lang <;> simp [create, Plain, Alnum])
    (by simp [create]) (by simp [create]) (by simp [create])
  rw [h]
  rfl

/-- Identifiers can begin with `_` in R, if the first translation is taken, and in the least language, if the label begins with the byte 223. -/
theorem underscore_defect :
    (insertAll (fun _ => 7) (create .r 0) [[117, 97], [95, 97]]).map (·.2) = .ok [some [117, 97], some [95, 97]] ∧
    (insert (fun _ => 7) (create .least 0) [223, 97]).map (·.2) = .ok (some [95, 97]) := by
  simp [insertAll, insert, create, labels, ids, toId, tries, attempt, ubar, ubarLoop, isalnum, iscntrl, ispunct, isspace, shorten, alnum, munged, munge, hex, Except.map]

end Verif.LabelSet
