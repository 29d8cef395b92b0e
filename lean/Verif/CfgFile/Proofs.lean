import Verif.CfgFile.Spec

/-!
# Proofs: the text of configuration files
-/

namespace Verif.CfgFile

theorem lines_cons : ∀ {l : List Char} (r : List Char), (∀ c ∈ l, c ≠ '\n') →
    lines (l ++ '\n' :: r) = (l ++ ['\n']) :: lines r
  | [], r, _ => by simp [lines]
  | c :: l, r, h => by
    have h1 : c ≠ '\n' := h c (by simp)
    have ih := lines_cons (l := l) r fun x hx => h x (by simp [hx])
    simp only [List.cons_append, lines, if_neg h1, ih]

/-! ## Comments -/

/-- Whether a `#` after this would begin a comment. -/
def lead (b : Bool) : List Char → Bool
  | [] => b
  | c :: cs => lead (isSpace c) cs

theorem lead_append (b : Bool) (x y : List Char) : lead b (x ++ y) = lead (lead b x) y := by
  induction x generalizing b with
  | nil => rfl
  | cons c x ih => exact ih _

theorem cut_append (b : Bool) (x y : List Char) (h : hasComment b x = false) :
    cutComment b (x ++ y) = x ++ cutComment (lead b x) y := by
  induction x generalizing b with
  | nil => rfl
  | cons c x ih =>
    simp only [hasComment, Bool.or_eq_false_iff, Bool.and_eq_false_iff, beq_eq_false_iff_ne] at h
    have hn : ¬(c = '#' ∧ b = true) := by
      rintro ⟨h1, h2⟩
      rcases h.1 with h3 | h3
      · exact h3 h1
      · rw [h2] at h3; cases h3
    simp only [List.cons_append, cutComment, if_neg hn, lead]
    rw [ih _ h.2]

theorem hasComment_append (b : Bool) (x y : List Char) :
    hasComment b (x ++ y) = (hasComment b x || hasComment (lead b x) y) := by
  induction x generalizing b with
  | nil => simp [hasComment, lead]
  | cons c x ih => simp only [List.cons_append, hasComment, lead, ih, Bool.or_assoc]

theorem space_hash {c : Char} (h : isSpace c = true) : c ≠ '#' := by
  rintro rfl
  exact absurd h (by decide)

theorem hasComment_gap (b : Bool) {s : List Char} (h : ∀ c ∈ s, isSpace c = true) :
    hasComment b s = false := by
  induction s generalizing b with
  | nil => rfl
  | cons c s ih =>
    have hc := space_hash (h c (by simp))
    simp only [hasComment, Bool.or_eq_false_iff]
    exact ⟨by simp [hc], ih _ fun x hx => h x (by simp [hx])⟩

theorem lead_gap {s : List Char} (h : ∀ c ∈ s, isSpace c = true) : lead true s = true := by
  induction s with
  | nil => rfl
  | cons c s ih =>
    simp only [lead, h c (by simp)]
    exact ih fun x hx => h x (by simp [hx])

theorem lead_gap_ne (b : Bool) {s : List Char} (h : ∀ c ∈ s, isSpace c = true) (hs : s ≠ []) :
    lead b s = true := by
  cases s with
  | nil => exact absurd rfl hs
  | cons c s =>
    simp only [lead, h c (by simp)]
    exact lead_gap fun x hx => h x (by simp [hx])

/-! ## Spaces -/

theorem dropWhile_all {p : Char → Bool} {s t : List Char} (h : ∀ c ∈ s, p c = true) :
    (s ++ t).dropWhile p = t.dropWhile p := by
  induction s with
  | nil => rfl
  | cons c s ih =>
    simp only [List.cons_append, List.dropWhile_cons, h c (by simp), if_true]
    exact ih fun x hx => h x (by simp [hx])

theorem dropWhile_first {p : Char → Bool} {t : List Char} {c : Char} (h : t.head? = some c)
    (hc : p c = false) : t.dropWhile p = t := by
  cases t with
  | nil => cases h
  | cons x t => cases h; simp [hc]

theorem trimEnd_gap (x : List Char) {s : List Char} (h : ∀ c ∈ s, isSpace c = true) :
    trimEnd (x ++ s) = trimEnd x := by
  unfold trimEnd
  rw [List.reverse_append, dropWhile_all (by intro c hc; exact h c (by simpa using hc))]

theorem trimEnd_last {x : List Char} {c : Char} (h : x.getLast? = some c) (hc : isSpace c = false) :
    trimEnd x = x := by
  unfold trimEnd
  rw [dropWhile_first (c := c) (by rw [List.head?_reverse]; exact h) hc, List.reverse_reverse]

theorem trimEnd_nil {s : List Char} (h : ∀ c ∈ s, isSpace c = true) : trimEnd s = [] := by
  have := trimEnd_gap [] h
  simpa [trimEnd] using this

/-- What is after the comment does not matter. -/
theorem trimEnd_nul (x w : List Char) : ∃ u, trimEnd (x ++ '\x00' :: w) = x ++ '\x00' :: u ∧ u.length ≤ w.length := by
  unfold trimEnd
  have e : (x ++ '\x00' :: w).reverse = w.reverse ++ '\x00' :: x.reverse := by simp
  rw [e]
  have key : ∀ (v z : List Char), ∃ u, (v ++ '\x00' :: z).dropWhile isSpace = u ++ '\x00' :: z ∧
      u.length ≤ v.length := by
    intro v z
    induction v with
    | nil => exact ⟨[], by rw [List.nil_append, dropWhile_first (c := '\x00') rfl (by decide)], Nat.le_refl _⟩
    | cons c v ih =>
      by_cases hc : isSpace c = true
      · obtain ⟨u, hu, hl⟩ := ih
        refine ⟨u, ?_, by simp; omega⟩
        simp only [List.cons_append, List.dropWhile_cons, hc, if_true, hu]
      · refine ⟨c :: v, ?_, Nat.le_refl _⟩
        simp only [List.cons_append, List.dropWhile_cons, hc]
        rfl
  obtain ⟨u, hu, hl⟩ := key w.reverse x.reverse
  refine ⟨u.reverse, ?_, by simpa using hl⟩
  rw [hu]
  simp

theorem Gap.sp {s : List Char} (h : Gap s) : ∀ c ∈ s, isSpace c = true := fun c hc => (h c hc).1

theorem nl_sp {s : List Char} (h : Gap s) : ∀ c ∈ s ++ ['\n'], isSpace c = true := by
  intro c hc
  rcases List.mem_append.mp hc with hc | hc
  · exact h.sp c hc
  · simp at hc; subst hc; decide

/-! ## Lines -/

theorem physical_blank {s : List Char} (h : Gap s) : physical (s ++ ['\n']) = [] := by
  unfold physical
  have := cut_append true (s ++ ['\n']) [] (hasComment_gap true (nl_sp h))
  rw [List.append_nil] at this
  rw [this, cutComment, List.append_nil, trimEnd_nil (nl_sp h)]
  rfl

theorem physical_comment {s t : List Char} (h : Gap s) :
    ∃ u, physical (s ++ '#' :: t ++ ['\n']) = '\x00' :: u ∧ u.length ≤ t.length + 1 := by
  unfold physical
  rw [List.append_assoc, cut_append true s _ (hasComment_gap true h.sp), lead_gap h.sp]
  simp only [List.cons_append, cutComment, and_self, if_true]
  obtain ⟨u, hu, hl⟩ := trimEnd_nul s (t ++ ['\n'])
  rw [hu]
  refine ⟨u, ?_, by simpa using hl⟩
  rw [dropWhile_all h.sp, dropWhile_first (c := '\x00') rfl (by decide)]

theorem cut_plain (b : Bool) (x : List Char) (h : hasComment b x = false) : cutComment b x = x := by
  have := cut_append b x [] h
  simpa [cutComment] using this

theorem hasComment_text {pre text : List Char} (hp : Gap pre) (ht : Text text) :
    hasComment true (pre ++ text) = false := by
  rw [hasComment_append, hasComment_gap true hp.sp, lead_gap hp.sp, ht.plain]
  rfl

theorem Text.ne {l : List Char} (h : Text l) : l ≠ [] := by
  obtain ⟨c, hc, _⟩ := h.first
  rintro rfl
  cases hc

theorem drop_text {pre text x : List Char} (hp : Gap pre) (ht : Text text) :
    (pre ++ (text ++ x)).dropWhile isSpace = text ++ x := by
  obtain ⟨c, hc, hs⟩ := ht.first
  rw [dropWhile_all hp.sp]
  refine dropWhile_first (c := c) ?_ hs
  rw [List.head?_append, hc]
  rfl

theorem physical_cont {c : Cont} (h : c.Ok) : physical c.show = c.text ++ c.gap ++ ['\\'] := by
  unfold physical Cont.show
  have hn : hasComment true (c.pre ++ c.text ++ c.gap ++ '\\' :: c.post ++ ['\n']) = false := by
    rw [List.append_assoc, List.append_assoc, hasComment_append, hasComment_text h.pre h.text,
      hasComment_append, hasComment_gap _ h.gap.sp]
    simp only [List.cons_append, hasComment, Bool.false_or]
    rw [hasComment_gap _ (nl_sp h.post)]
    rfl
  rw [cut_plain _ _ hn]
  have e : c.pre ++ c.text ++ c.gap ++ '\\' :: c.post ++ ['\n'] =
      c.pre ++ (c.text ++ (c.gap ++ ['\\'])) ++ (c.post ++ ['\n']) := by simp
  rw [e, trimEnd_gap _ (nl_sp h.post), trimEnd_last (c := '\\') (by simp [List.getLast?_append]) (by decide),
    drop_text h.pre h.text]
  simp

theorem physical_last {pre text gap : List Char} (hp : Gap pre) (ht : Text text) (hg : Gap gap) :
    physical (pre ++ text ++ gap ++ ['\n']) = text := by
  unfold physical
  have hn : hasComment true (pre ++ text ++ (gap ++ ['\n'])) = false := by
    rw [hasComment_append, hasComment_text hp ht, hasComment_gap _ (nl_sp hg)]
    rfl
  rw [List.append_assoc, cut_plain _ _ hn, trimEnd_gap _ (nl_sp hg)]
  obtain ⟨c, hc, hs⟩ := ht.last
  rw [trimEnd_last (c := c) (by rw [List.getLast?_append, hc]; rfl) hs]
  have := drop_text (x := []) hp ht
  simpa using this

theorem physical_last_comment {pre text gap t : List Char} (hp : Gap pre) (ht : Text text) (hg : Gap gap)
    (hne : gap ≠ []) :
    ∃ u, physical (pre ++ text ++ gap ++ '#' :: t ++ ['\n']) = text ++ gap ++ '\x00' :: u ∧
      u.length ≤ t.length + 1 := by
  unfold physical
  have hn : hasComment true (pre ++ text ++ gap) = false := by
    rw [hasComment_append, hasComment_text hp ht, hasComment_gap _ hg.sp]
    rfl
  rw [List.append_assoc, cut_append true _ _ hn]
  have hl : lead true (pre ++ text ++ gap) = true := by
    rw [lead_append]
    exact lead_gap_ne _ hg.sp hne
  rw [hl]
  simp only [List.cons_append, cutComment, and_self, if_true]
  obtain ⟨u, hu, hlen⟩ := trimEnd_nul (pre ++ text ++ gap) (t ++ ['\n'])
  rw [hu]
  refine ⟨u, ?_, by simpa using hlen⟩
  have e : pre ++ text ++ gap ++ '\x00' :: u = pre ++ (text ++ (gap ++ '\x00' :: u)) := by simp
  rw [e, drop_text hp ht]
  simp

theorem piece_plain {l x : List Char} (h : ∀ c ∈ l, c ≠ '\x00') (hx : x = [] ∨ ∃ u, x = '\x00' :: u) :
    piece (l ++ x) = l := by
  unfold piece
  induction l with
  | nil =>
    rcases hx with rfl | ⟨u, rfl⟩
    · rfl
    · simp
  | cons c l ih =>
    have := h c (by simp)
    simp only [List.cons_append, List.takeWhile_cons]
    rw [if_pos (by simpa using this), ih fun y hy => h y (by simp [hy])]

theorem sp_nul {c : Char} (h : isSpace c = true) : c ≠ '\x00' := by
  rintro rfl
  exact absurd h (by decide)

/-! ## Feeding lines -/

theorem feed_empty (b : Buf) {l : List Char} (h : physical l = []) : feed b l = .parse b := by
  unfold feed
  simp only [h, true_or, if_true]

theorem feed_comment {b : Buf} (hb : b.line = []) {l u : List Char} (h : physical l = '\x00' :: u)
    (hs : u.length + 1 < b.sz) : feed b l = .parse b := by
  have n1 : ¬(('\x00' :: u : List Char) = [] ∨ '\x00' :: u = ['\\']) := by
    rintro (h | h)
    · cases h
    · have := (List.cons.inj h).1
      exact absurd this (by decide)
  have hp : piece ('\x00' :: u) = [] := by simp [piece]
  unfold feed
  simp only [h, if_neg n1, hb, List.nil_append, hp, List.length_nil, List.length_cons]
  rw [if_neg (show ¬(u.length + 1 + 0 > b.sz) by omega)]
  rw [if_neg (show ¬(0 + 1 > b.sz) by omega)]
  simp only [List.getLast?_nil, reduceCtorEq, if_false]
  cases b
  simp only at hb
  subst hb
  rfl

theorem feed_cont {b : Buf} {c : Cont} (h : c.Ok) (hs : b.line.length + c.show.length < b.sz) :
    feed b c.show = .more { line := b.line ++ c.text ++ c.gap ++ [' '], sz := b.sz } := by
  have hp := physical_cont h
  have hne := h.text.ne
  have n1 : ¬(c.text ++ c.gap ++ ['\\'] = [] ∨ c.text ++ c.gap ++ ['\\'] = ['\\']) := by
    rintro (e | e)
    · simp at e
    · have := congrArg List.length e
      have h0 : 0 < c.text.length := List.length_pos_iff.mpr hne
      simp only [List.length_append, List.length_cons, List.length_nil] at this
      omega
  have hpc : piece (c.text ++ c.gap ++ ['\\']) = c.text ++ c.gap ++ ['\\'] := by
    have := piece_plain (l := c.text ++ c.gap ++ ['\\']) (x := []) (by
      intro x hx
      simp only [List.mem_append, List.mem_singleton] at hx
      rcases hx with (hx | hx) | hx
      · exact (h.text.rest x hx).2
      · exact sp_nul (h.gap.sp x hx)
      · subst hx; decide) (.inl rfl)
    simpa using this
  have hl : (c.show).length = c.pre.length + c.text.length + c.gap.length + c.post.length + 2 := by
    simp only [Cont.show, List.length_append, List.length_cons, List.length_nil]; omega
  unfold feed
  simp only [hp, if_neg n1, hpc, List.length_append, List.length_cons, List.length_nil]
  rw [if_neg (show ¬(c.text.length + c.gap.length + (0 + 1) + b.line.length > b.sz) by omega)]
  rw [if_neg (show ¬(b.line.length + (c.text.length + c.gap.length + (0 + 1)) + 1 > b.sz) by omega)]
  have e : b.line ++ (c.text ++ c.gap ++ ['\\']) = (b.line ++ c.text ++ c.gap) ++ ['\\'] := by simp
  rw [e, List.getLast?_append, List.dropLast_concat]
  rfl

theorem feed_last {b : Buf} {text gap x l : List Char} (ht : Text text)
    (hb : text.getLast? ≠ some '\\') (hg : Gap gap) (hgx : x = [] → gap = [])
    (h : physical l = text ++ gap ++ x) (hx : x = [] ∨ ∃ u, x = '\x00' :: u)
    (hs : b.line.length + text.length + gap.length + x.length < b.sz) :
    feed b l = .parse { line := b.line ++ text ++ gap, sz := b.sz } := by
  have hne := ht.ne
  obtain ⟨c, hc, hcs⟩ := ht.last
  have hcb : c ≠ '\\' := by rintro rfl; exact hb hc
  have hpc : piece (text ++ gap ++ x) = text ++ gap := piece_plain (by
      intro y hy
      rcases List.mem_append.mp hy with hy | hy
      · exact (ht.rest y hy).2
      · exact sp_nul (hg.sp y hy)) hx
  have hlast : (b.line ++ (text ++ gap)).getLast? ≠ some '\\' := by
    rw [List.getLast?_append, List.getLast?_append, hc]
    cases hgl : gap.getLast? with
    | none => simpa using hcb
    | some g =>
      simp only [Option.some_or]
      intro e
      cases e
      exact absurd (hg.sp '\\' (List.mem_of_getLast? hgl)) (by decide)
  have n1 : ¬(text ++ gap ++ x = [] ∨ text ++ gap ++ x = ['\\']) := by
    rintro (e | e)
    · simp at e; exact hne e.1
    · rcases hx with rfl | ⟨u, rfl⟩
      · have hg0 := hgx rfl
        subst hg0
        simp only [List.append_nil] at e
        rw [e] at hb
        exact hb rfl
      · have := congrArg List.length e
        have h0 : 0 < text.length := List.length_pos_iff.mpr hne
        simp only [List.length_append, List.length_cons, List.length_nil] at this
        omega
  unfold feed
  simp only [h, if_neg n1, hpc, List.length_append]
  rw [if_neg (show ¬(text.length + gap.length + x.length + b.line.length > b.sz) by omega)]
  have hlen : ¬(b.line.length + (text.length + gap.length) + 1 > b.sz) := by
    omega
  rw [if_neg hlen, if_neg hlast]
  simp

variable {N : Nat}

/-! ## Items -/

theorem Rest.nl {l : List Char} (h : Rest l) : ∀ c ∈ l, c ≠ '\n' := fun c hc => (h c hc).1
theorem Gap.nl {l : List Char} (h : Gap l) : ∀ c ∈ l, c ≠ '\n' := fun c hc => (h c hc).2

theorem nl_append {x y : List Char} (h1 : ∀ c ∈ x, c ≠ '\n') (h2 : ∀ c ∈ y, c ≠ '\n') :
    ∀ c ∈ x ++ y, c ≠ '\n' := by
  intro c hc
  rcases List.mem_append.mp hc with hc | hc
  · exact h1 c hc
  · exact h2 c hc

/-- The text of the lines that go on. -/
def contText (cs : List Cont) : List Char := (cs.map fun c => c.text ++ c.gap ++ [' ']).flatten

theorem scan_conts : ∀ (cs : List Cont) (acc : List Char) (no : Nat) (r : List Char), (∀ c ∈ cs, c.Ok) →
    acc.length + ((cs.map Cont.show).flatten).length < N →
    scanLines { line := acc, sz := N } no (lines ((cs.map Cont.show).flatten ++ r)) =
      scanLines { line := acc ++ contText cs, sz := N } (no + cs.length) (lines r)
  | [], acc, no, r, _, _ => by simp [contText]
  | c :: cs, acc, no, r, h, hs => by
    have hc := h c (by simp)
    simp only [List.map_cons, List.flatten_cons, List.length_append] at hs
    have hnl : ∀ x ∈ c.pre ++ c.text ++ c.gap ++ '\\' :: c.post, x ≠ '\n' :=
      nl_append (nl_append (nl_append hc.pre.nl hc.text.rest.nl) hc.gap.nl) (by
        intro x hx
        rcases List.mem_cons.mp hx with rfl | hx
        · decide
        · exact hc.post.nl x hx)
    have hl := lines_cons ((cs.map Cont.show).flatten ++ r) hnl
    have e : (c :: cs).map Cont.show = c.show :: cs.map Cont.show := rfl
    have e2 : c.show ++ (List.map Cont.show cs).flatten ++ r =
        c.pre ++ c.text ++ c.gap ++ '\\' :: c.post ++ '\n' :: ((List.map Cont.show cs).flatten ++ r) := by
      simp [Cont.show]
    rw [e, List.flatten_cons, e2, hl]
    have hf := feed_cont (b := { line := acc, sz := N }) hc (by simp only; omega)
    have e3 : c.pre ++ c.text ++ c.gap ++ '\\' :: c.post ++ ['\n'] = c.show := rfl
    rw [e3]
    simp only [scanLines, hf]
    have hlen : (acc ++ c.text ++ c.gap ++ [' ']).length ≤ acc.length + c.show.length := by
      simp only [Cont.show, List.length_append, List.length_cons, List.length_nil]; omega
    rw [scan_conts cs _ _ r (fun x hx => h x (by simp [hx])) (by omega)]
    have e4 : acc ++ c.text ++ c.gap ++ [' '] ++ contText cs = acc ++ contText (c :: cs) := by
      simp [contText]
    rw [e4]
    have e5 : no + 1 + cs.length = no + (c :: cs).length := by simp only [List.length_cons]; omega
    rw [e5]

/-- The text read of a command. -/
def cmdText (cs : List Cont) (text gap : List Char) (com : Option (List Char)) : List Char :=
  contText cs ++ text ++ (if com = none then [] else gap)

theorem contText_len (cs : List Cont) : (contText cs).length ≤ ((cs.map Cont.show).flatten).length := by
  induction cs with
  | nil => exact Nat.le_refl _
  | cons c cs ih =>
    simp only [contText, List.map_cons, List.flatten_cons, List.length_append] at ih ⊢
    simp only [Cont.show, List.length_append, List.length_cons, List.length_nil] at ih ⊢
    omega

theorem scan_cmd {cs : List Cont} {pre text gap : List Char} {com : Option (List Char)}
    (h : (Item.cmd cs pre text gap com).Ok) (hs : (Item.cmd cs pre text gap com).show.length < N)
    (no : Nat) (r : List Char) :
    scanLines { line := [], sz := N } no (lines ((Item.cmd cs pre text gap com).show ++ r)) =
      .line (no + (cs.length + 1)) (cmdText cs text gap com) ::
        scanLines { line := [], sz := N } (no + (cs.length + 1)) (lines r) := by
  obtain ⟨h1, h2, h3, h4, h5, h6⟩ := h
  simp only [Item.show, List.length_append, List.length_cons, List.length_nil] at hs
  have hct := contText_len cs
  have hnl : ∀ x ∈ pre ++ text ++ gap ++ tail com, x ≠ '\n' := by
    refine nl_append (nl_append (nl_append h2.nl h3.rest.nl) h5.nl) ?_
    intro x hx
    cases com with
    | none => cases hx
    | some t =>
      rcases List.mem_cons.mp hx with rfl | hx
      · decide
      · exact (h6 t rfl).1.nl x hx
  have e1 : (Item.cmd cs pre text gap com).show ++ r =
      (cs.map Cont.show).flatten ++ (pre ++ text ++ gap ++ tail com ++ '\n' :: r) := by
    simp [Item.show]
  rw [e1, scan_conts cs [] no _ h1 (by simp only [List.length_nil]; omega), lines_cons r hnl, List.nil_append]
  have hcne : cmdText cs text gap com ≠ [] := by
    have := h3.ne
    simp [cmdText, this]
  have hf : feed { line := contText cs, sz := N } (pre ++ text ++ gap ++ tail com ++ ['\n']) =
      .parse { line := cmdText cs text gap com, sz := N } := by
    cases com with
    | none =>
      have hph : physical (pre ++ text ++ gap ++ tail none ++ ['\n']) = text ++ [] ++ [] := by
        simp only [tail, List.append_nil]
        exact physical_last h2 h3 h5
      have := feed_last (b := { line := contText cs, sz := N }) (gap := []) h3 h4 (fun _ h => nomatch h)
        (fun _ => rfl) hph (.inl rfl) (by simp only [List.length_nil]; omega)
      rw [this]
      simp [cmdText]
    | some t =>
      obtain ⟨_, hne⟩ := h6 t rfl
      obtain ⟨u, hph, hlen⟩ := physical_last_comment (t := t) h2 h3 h5 hne
      simp only [tail, List.length_cons] at hs
      have := feed_last (b := { line := contText cs, sz := N }) (x := '\x00' :: u) h3 h4 h5 (fun e => nomatch e)
        (l := pre ++ text ++ gap ++ tail (some t) ++ ['\n']) hph (.inr ⟨u, rfl⟩)
        (by simp only [List.length_cons]; omega)
      rw [this]
      simp [cmdText]
  simp only [scanLines, hf, if_neg hcne]
  have e5 : no + cs.length + 1 = no + (cs.length + 1) := by omega
  rw [e5]

/-! ## Words -/

theorem wordsAux_space (x y : List Char) {c : Char} (hc : isSpace c = true) (cur : List Char) :
    wordsAux cur (x ++ c :: y) = wordsAux cur x ++ wordsAux [] y := by
  induction x generalizing cur with
  | nil =>
    simp only [List.nil_append, wordsAux, hc, if_true]
    split <;> simp
  | cons a x ih =>
    simp only [List.cons_append, wordsAux]
    split
    · split
      · exact ih _
      · rw [ih]; rfl
    · exact ih _

theorem words_space (x y : List Char) {c : Char} (hc : isSpace c = true) :
    words (x ++ c :: y) = words x ++ words y := wordsAux_space x y hc []

theorem words_gap (x : List Char) {s : List Char} (h : ∀ c ∈ s, isSpace c = true) :
    words (x ++ s) = words x := by
  cases s with
  | nil => simp
  | cons c s =>
    rw [words_space _ _ (h c (by simp))]
    have : words s = [] := by
      have hs : ∀ c ∈ s, isSpace c = true := fun x hx => h x (by simp [hx])
      clear h
      unfold words
      induction s with
      | nil => rfl
      | cons a s ih =>
        simp only [wordsAux, hs a (by simp), if_true]
        exact ih fun x hx => hs x (by simp [hx])
    simp [this]

theorem words_conts (cs : List Cont) (h : ∀ c ∈ cs, c.Ok) (y : List Char) :
    words (contText cs ++ y) = (cs.map (·.text)).flatMap words ++ words y := by
  induction cs with
  | nil => simp [contText]
  | cons c cs ih =>
    have hc := h c (by simp)
    have e : contText (c :: cs) ++ y = (c.text ++ c.gap) ++ ' ' :: (contText cs ++ y) := by simp [contText]
    rw [e, words_space _ _ (by decide), words_gap _ hc.gap.sp, ih fun x hx => h x (by simp [hx])]
    simp

theorem words_cmd {cs : List Cont} {pre text gap : List Char} {com : Option (List Char)}
    (h : (Item.cmd cs pre text gap com).Ok) :
    words (cmdText cs text gap com) = (cs.map (·.text) ++ [text]).flatMap words := by
  obtain ⟨h1, _, _, _, h5, _⟩ := h
  unfold cmdText
  rw [List.append_assoc, words_conts _ h1]
  simp only [List.flatMap_append, List.flatMap_cons, List.flatMap_nil, List.append_nil]
  split
  · simp
  · rw [words_gap _ h5.sp]

end Verif.CfgFile
