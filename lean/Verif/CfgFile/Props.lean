import Verif.CfgFile.Exec

/-!
# C68: configuration files
-/

namespace Verif.CfgFile

variable {C : Type} {L : Lang C} {fs : String → Option (List Char)}

/-! ## What is read -/

variable {N : Nat}

theorem scan_blank {l : List Char} (hl : ∀ x ∈ l, x ≠ '\n')
    (hf : feed { line := [], sz := N } (l ++ ['\n']) = .parse { line := [], sz := N }) (no : Nat) (r : List Char) :
    scanLines { line := [], sz := N } no (lines (l ++ ['\n'] ++ r)) =
      scanLines { line := [], sz := N } (no + 1) (lines r) := by
  have e : l ++ ['\n'] ++ r = l ++ '\n' :: r := by simp
  rw [e, lines_cons r hl]
  simp only [scanLines, hf, if_true]

theorem scan_items : ∀ (items : List Item) (no : Nat), (∀ i ∈ items, i.Ok ∧ i.show.length < N) →
    read (scanLines { line := [], sz := N } no (lines (items.map Item.show).flatten)) = commands no items ∧
    .overrun ∉ scanLines { line := [], sz := N } no (lines (items.map Item.show).flatten)
  | [], no, _ => by simp [lines, scanLines, read, commands]
  | i :: is, no, h => by
    have hi := h i (by simp)
    have hr : ∀ x ∈ is, x.Ok ∧ x.show.length < N := fun x hx => h x (by simp [hx])
    simp only [List.map_cons, List.flatten_cons]
    cases i with
    | blank s =>
      have := scan_blank (N := N) hi.1.nl (feed_empty _ (physical_blank hi.1)) no (is.map Item.show).flatten
      simp only [Item.show, this, commands, Item.texts, Item.lines]
      exact scan_items is (no + 1) hr
    | comment s t =>
      have hnl : ∀ x ∈ s ++ '#' :: t, x ≠ '\n' := by
        refine nl_append hi.1.1.nl ?_
        intro x hx
        rcases List.mem_cons.mp hx with rfl | hx
        · decide
        · exact hi.1.2.nl x hx
      obtain ⟨u, hu, hul⟩ := physical_comment (t := t) hi.1.1
      have hlen := hi.2
      simp only [Item.show, List.length_append, List.length_cons, List.length_nil] at hlen
      have := scan_blank (N := N) hnl (feed_comment rfl hu (by simp only; omega)) no (is.map Item.show).flatten
      simp only [Item.show, this, commands, Item.texts, Item.lines]
      exact scan_items is (no + 1) hr
    | cmd cs pre text gap com =>
      rw [scan_cmd hi.1 hi.2]
      simp only [read, commands, Item.texts, Item.lines]
      have ih := scan_items is (no + (cs.length + 1)) hr
      rw [words_cmd hi.1, ih.1]
      exact ⟨rfl, by simpa using ih.2⟩

theorem scan_size : ∀ (ls : List (List Char)) (line : List Char) (a b no : Nat),
    .overrun ∉ scanLines { line := line, sz := a } no ls → .overrun ∉ scanLines { line := line, sz := b } no ls →
    scanLines { line := line, sz := a } no ls = scanLines { line := line, sz := b } no ls
  | [], _, _, _, _, _, _ => rfl
  | l :: ls, line, a, b, no, ha, hb => by
    have key : feed { line := line, sz := a } l = .overrun ∨ feed { line := line, sz := b } l = .overrun ∨
        (∃ x a' b', feed { line := line, sz := a } l = .more { line := x, sz := a' } ∧
          feed { line := line, sz := b } l = .more { line := x, sz := b' }) ∨
        (∃ x a' b', feed { line := line, sz := a } l = .parse { line := x, sz := a' } ∧
          feed { line := line, sz := b } l = .parse { line := x, sz := b' }) := by
      unfold feed
      simp only []
      generalize physical l = t
      by_cases h1 : t = [] ∨ t = ['\\']
      · simp only [if_pos h1]
        exact .inr (.inr (.inr ⟨_, _, _, rfl, rfl⟩))
      · simp only [if_neg h1]
        generalize (if t.length + line.length > a then ((t.length + line.length) / a + 1) * a else a) = a1
        generalize (if t.length + line.length > b then ((t.length + line.length) / b + 1) * b else b) = b1
        by_cases h2 : (line ++ piece t).length + 1 > a1
        · exact .inl (if_pos h2)
        · by_cases h3 : (line ++ piece t).length + 1 > b1
          · exact .inr (.inl (if_pos h3))
          · simp only [if_neg h2, if_neg h3]
            by_cases h4 : (line ++ piece t).getLast? = some '\\'
            · simp only [if_pos h4]
              exact .inr (.inr (.inl ⟨_, _, _, rfl, rfl⟩))
            · simp only [if_neg h4]
              exact .inr (.inr (.inr ⟨_, _, _, rfl, rfl⟩))
    rcases key with h | h | ⟨x, a', b', h1, h2⟩ | ⟨x, a', b', h1, h2⟩
    · simp [scanLines, h] at ha
    · simp [scanLines, h] at hb
    · simp only [scanLines, h1, h2] at ha hb ⊢
      exact scan_size ls x a' b' (no + 1) ha hb
    · simp only [scanLines, h1, h2] at ha hb ⊢
      by_cases hx : x = []
      · simp only [if_pos hx] at ha hb ⊢
        exact scan_size ls x a' b' (no + 1) ha hb
      · simp only [if_neg hx] at ha hb ⊢
        rw [scan_size ls [] a' b' (no + 1) (fun h => ha (List.mem_cons_of_mem _ h))
          (fun h => hb (List.mem_cons_of_mem _ h))]

/-- **C68** A file of blank lines, comments and commands of any length is read as its
commands: each once, in order, with the words the user wrote over however many lines, and
the number of its last line.  Missing: the reader may write beyond its buffer. -/
theorem cfgfile_lines_partial (items : List Item) (h : ∀ i ∈ items, i.Ok)
    (ho : .overrun ∉ scan (items.map Item.show).flatten) :
    read (scan (items.map Item.show).flatten) = commands 0 items := by
  have hlen : ∀ i ∈ items, i.show.length < (items.map Item.show).flatten.length + 1 := by
    intro i hi
    clear h ho
    induction items with
    | nil => cases hi
    | cons j js ih =>
      simp only [List.map_cons, List.flatten_cons, List.length_append]
      rcases List.mem_cons.mp hi with rfl | hi
      · omega
      · have := ih hi; omega
  obtain ⟨h1, h2⟩ := scan_items (N := (items.map Item.show).flatten.length + 1) items 0 fun i hi => ⟨h i hi, hlen i hi⟩
  unfold scan at ho ⊢
  rw [scan_size _ _ _ _ _ ho h2]
  exact h1

/-- **C68** It does not write beyond its buffer if each command, with its comments, has less
than 8192 bytes. -/
theorem cfgfile_bounds_partial (items : List Item) (h : ∀ i ∈ items, i.Ok ∧ i.show.length < 8192) :
    .overrun ∉ scan (items.map Item.show).flatten := (scan_items items 0 h).2

/-- A file of the kinds of lines there are. -/
def exItems : List Item :=
  [.comment " ".toList " a comment".toList, .blank "\t".toList,
   .cmd [⟨[], "prdcr_add name=x".toList, " ".toList, []⟩, ⟨"  ".toList, "host=h#1".toList, [], " ".toList⟩]
     "  ".toList "port=1".toList " ".toList (some " the \\".toList),
   .cmd [] [] "prdcr_start name=x".toList [] none]

/-- Beside `cfgfile_lines_partial` and `cfgfile_bounds_partial`: this file meets its conditions; the text and what is read. -/
example : (∀ i ∈ exItems, i.show.length < 8192) ∧
    (exItems.map Item.show).flatten =
      (" # a comment\n\t\nprdcr_add name=x \\\n  host=h#1\\ \n  port=1 # the \\\nprdcr_start name=x\n").toList ∧
    commands 0 exItems = [(5, ["prdcr_add".toList, "name=x".toList, "host=h#1".toList, "port=1".toList]),
      (6, ["prdcr_start".toList, "name=x".toList])] := by
  refine ⟨by decide +kernel, by decide +kernel, by decide +kernel⟩

theorem gap_of {l : List Char} (h : l.all (fun c => isSpace c && c != '\n') = true) : Gap l := by
  intro c hc
  have := List.all_eq_true.mp h c hc
  simpa using this

theorem rest_of {l : List Char} (h : l.all (fun c => c != '\n' && c != '\x00') = true) : Rest l := by
  intro c hc
  have := List.all_eq_true.mp h c hc
  simpa using this

theorem text_of {l : List Char} {a b : Char} (h1 : l.all (fun c => c != '\n' && c != '\x00') = true)
    (h2 : l.head? = some a) (h3 : isSpace a = false) (h4 : l.getLast? = some b) (h5 : isSpace b = false)
    (h6 : hasComment true l = false) : Text l := ⟨rest_of h1, ⟨a, h2, h3⟩, ⟨b, h4, h5⟩, h6⟩

example : ∀ i ∈ exItems, i.Ok := by
  intro i hi
  simp only [exItems, List.mem_cons, List.not_mem_nil, or_false] at hi
  rcases hi with rfl | rfl | rfl | rfl
  · exact ⟨gap_of (by decide), rest_of (by decide)⟩
  · exact gap_of (by decide)
  · refine ⟨?_, gap_of (by decide), text_of (a := 'p') (b := '1') (by decide) (by decide) (by decide) (by decide)
      (by decide) (by decide), by decide, gap_of (by decide), ?_⟩
    · intro c hc
      simp only [List.mem_cons, List.not_mem_nil, or_false] at hc
      rcases hc with rfl | rfl
      · exact ⟨gap_of (by decide), text_of (a := 'p') (b := 'x') (by decide) (by decide) (by decide) (by decide)
          (by decide) (by decide), gap_of (by decide), gap_of (by decide)⟩
      · exact ⟨gap_of (by decide), text_of (a := 'h') (b := '1') (by decide) (by decide) (by decide) (by decide)
          (by decide) (by decide), gap_of (by decide), gap_of (by decide)⟩
    · rintro t ⟨⟩
      exact ⟨rest_of (by decide), by decide⟩
  · refine ⟨(by intro c hc; cases hc), gap_of (by decide), text_of (a := 'p') (b := 'x') (by decide) (by decide)
      (by decide) (by decide) (by decide) (by decide), by decide, gap_of (by decide), ?_⟩
    rintro t ⟨⟩

/-- **C68** Spaces are those of C. -/
theorem cfgfile_spaces (c : Char) : isSpace c = true ↔ c ∈ [' ', '\t', '\n', '\x0b', '\x0c', '\r'] := by
  simp [isSpace, or_assoc]

/-! ## The end of a file -/

theorem cut_nl (b : Bool) (l : List Char) :
    trimEnd (cutComment b (l ++ ['\n'])) = trimEnd (cutComment b l) := by
  have nl : ∀ c ∈ (['\n'] : List Char), isSpace c = true := by simp [isSpace]
  have e : ∃ x, x = ['\n'] ∧ cutComment b (l ++ ['\n']) = cutComment b l ++ x := by
    refine ⟨_, rfl, ?_⟩
    induction l generalizing b with
    | nil => cases b <;> rfl
    | cons c l ih =>
      simp only [List.cons_append, cutComment]
      split
      · rfl
      · rw [ih]; rfl
  obtain ⟨x, rfl, e⟩ := e
  rw [e, trimEnd_gap _ nl]

theorem physical_nl (l : List Char) : physical (l ++ ['\n']) = physical l := by
  unfold physical
  rw [cut_nl]

theorem scan_last (b : Buf) (no : Nat) : ∀ (t : List Char), t ≠ [] → t.getLast? ≠ some '\n' →
    scanLines b no (lines (t ++ ['\n'])) = scanLines b no (lines t) := by
  intro t h1 h2
  have : ∃ ls l, lines t = ls ++ [l] ∧ lines (t ++ ['\n']) = ls ++ [l ++ ['\n']] := by
    induction t with
    | nil => exact absurd rfl h1
    | cons c t ih =>
      cases t with
      | nil =>
        have hc : c ≠ '\n' := by rintro rfl; exact h2 rfl
        exact ⟨[], [c], by simp [lines, hc], by simp [lines, hc]⟩
      | cons d t =>
        obtain ⟨ls, l, e1, e2⟩ := ih (by simp) (by simpa [List.getLast?_cons_cons] using h2)
        by_cases hc : c = '\n'
        · refine ⟨['\n'] :: ls, l, ?_, ?_⟩
          · rw [lines, if_pos hc, e1]; rfl
          · rw [List.cons_append, lines, if_pos hc, e2]; rfl
        · cases ls with
          | nil =>
            refine ⟨[], c :: l, ?_, ?_⟩
            · rw [lines, if_neg hc, e1]; rfl
            · rw [List.cons_append, lines, if_neg hc, e2]; rfl
          | cons k ls =>
            refine ⟨(c :: k) :: ls, l, ?_, ?_⟩
            · rw [lines, if_neg hc, e1]; rfl
            · rw [List.cons_append, lines, if_neg hc, e2]; rfl
  obtain ⟨ls, l, e1, e2⟩ := this
  rw [e1, e2]
  clear e1 e2
  induction ls generalizing b no with
  | nil =>
    have : feed b (l ++ ['\n']) = feed b l := by unfold feed; rw [physical_nl]
    simp only [List.nil_append, scanLines, this]
  | cons k ls ih =>
    simp only [List.cons_append, scanLines]
    cases feed b k with
    | more b => exact ih _ _
    | overrun => rfl
    | parse b => simp only [ih]

/-- **C68** Whether the last line of a file has an end makes no difference. -/
theorem cfgfile_last_line (t : List Char) (h1 : t ≠ []) (h2 : t.getLast? ≠ some '\n') :
    scan (t ++ ['\n']) = scan t := scan_last _ _ t h1 h2

example : scan "a b".toList = [.line 1 "a b".toList] ∧ "a b".toList.getLast? ≠ some '\n' := by decide +kernel

/-- A command whose last line ends in a backslash is lost, without an error, if the file
ends there. -/
theorem cfgfile_backslash_end_defect : scan "a b\nc d \\\n".toList = [.line 1 "a b".toList] := by decide +kernel

/-- A comment between the lines of a command ends it: the rest is taken for another command.
A backslash before a comment does not make the line go on. -/
theorem cfgfile_comment_in_command_defect :
    read (scan "a x=1 \\\n# why\n  y=2\n".toList) = [(2, ["a".toList, "x=1".toList]), (3, ["y=2".toList])] ∧
    read (scan "a x=1 \\ # why\n  y=2\n".toList) = [(1, ["a".toList, "x=1".toList, "\\".toList]), (2, ["y=2".toList])] := by
  decide +kernel

theorem getLast_rep (n : Nat) (h : n ≠ 0) : (List.replicate n 'x').getLast? = some 'x' := by
  cases n with
  | zero => exact absurd rfl h
  | succ n => simp [List.getLast?_replicate]

theorem cut_rep (n : Nat) (b : Bool) : cutComment b (List.replicate n 'x') = List.replicate n 'x' := by
  induction n generalizing b with
  | zero => rfl
  | succ n ih => simp [List.replicate_succ, cutComment, ih]

theorem physical_rep (n : Nat) (h : n ≠ 0) : physical (List.replicate n 'x') = List.replicate n 'x' := by
  unfold physical
  rw [cut_rep, trimEnd_last (getLast_rep n h) (by decide)]
  cases n with
  | zero => exact absurd rfl h
  | succ n => rfl

theorem lines_rep (n : Nat) (hn : n ≠ 0) : lines (List.replicate n 'x') = [List.replicate n 'x'] := by
  induction n with
  | zero => exact absurd rfl hn
  | succ n ih =>
    cases n with
    | zero => rfl
    | succ n => rw [List.replicate_succ, lines, if_neg (by decide), ih (by simp)]

theorem feed_rep (n : Nat) (hn : 1 < n) : feed { line := [], sz := n } (List.replicate n 'x') = .overrun := by
  have hpc : piece (List.replicate n 'x') = List.replicate n 'x' := by
    have := piece_plain (l := List.replicate n 'x') (x := []) (by
      intro c hc
      rw [(List.mem_replicate.mp hc).2]
      decide) (.inl rfl)
    simpa using this
  have n1 : ¬(List.replicate n 'x' = [] ∨ List.replicate n 'x' = ['\\']) := by
    rintro (h | h)
    · have := congrArg List.length h
      rw [List.length_replicate, List.length_nil] at this
      omega
    · have := congrArg List.length h
      rw [List.length_replicate, List.length_cons, List.length_nil] at this
      omega
  unfold feed
  simp only [physical_rep n (by omega), if_neg n1, hpc, List.nil_append, List.length_replicate, List.length_nil]
  rw [if_neg (show ¬(n + 0 > n) by omega), if_pos (show n + 1 > n by omega)]

/-- A line that fills the buffer to the last byte makes the reader write one byte beyond it. -/
theorem cfgfile_overrun_defect : scan (List.replicate 8192 'x') = [.overrun] := by
  unfold scan
  rw [lines_rep 8192 (by omega), scanLines, feed_rep 8192 (by omega)]

/-! ## What is executed -/

/-- **C68** One reading of a file, before or after the daemon is initialised, executes the
commands of its kind (those with priority before, the others after) and no others: each
once, in the order of the file.  Here without includes. -/
theorem cfgfile_pass (n : Nat) (init : Bool) {p : String} {t : List Char} {cs : List (Nat × C)} {h : List C}
    (ht : fs p = some t) (hp : Parsed L (scan t) cs)
    (hi : ∀ c ∈ cs, L.prio c.2 ≠ init → L.incl c.2 = none)
    (hg : Good L h ((cs.map (·.2)).filter fun c => L.prio c != init)) :
    runFile fs L init (n + 1) p h = .done (h ++ (cs.map (·.2)).filter fun c => L.prio c != init) := by
  have e : (cs.map (·.2)).filter (fun c => L.prio c != init) = (sel L init cs).map (·.2) := by
    unfold sel
    rw [List.filter_map]
    rfl
  rw [e] at hg ⊢
  simp only [runFile, ht]
  refine run_parsed _ init hp ?_ hg
  intro c hc
  have := List.mem_filter.mp hc
  exact hi c this.1 (by simpa using this.2)

/-- **C68** The first command that fails ends it: those before it and it are executed, none
after it, and the error and the number of its line are reported. -/
theorem cfgfile_first_error (n : Nat) (init : Bool) {p : String} {t : List Char} {cs a b : List (Nat × C)}
    {c : Nat × C} {h : List C} (ht : fs p = some t) (hp : Parsed L (scan t) cs)
    (hi : ∀ c ∈ cs, L.prio c.2 ≠ init → L.incl c.2 = none)
    (hs : (cs.filter fun c => L.prio c.2 != init) = a ++ c :: b) (hg : Good L h (a.map (·.2)))
    (hc : L.rc (h ++ a.map (·.2)) c.2 ≠ 0) :
    runFile fs L init (n + 1) p h =
      .failed (h ++ a.map (·.2) ++ [c.2]) (L.rc (h ++ a.map (·.2)) c.2) c.1 := by
  simp only [runFile, ht]
  refine run_parsed_fail _ init hp ?_ hs hg hc
  intro c hc
  have := List.mem_filter.mp hc
  exact hi c this.1 (by simpa using this.2)

/-- **C68** Starting with configuration files: first the commands with priority, of all
files and the files they include, then the others, each once and in order.
Missing: those others that stand in an included file are not executed. -/
theorem cfgfile_startup_partial (hI : ∀ c p, L.incl c = some p → L.prio c = true) {n : Nat} {ps : List String}
    {top all : List C} (hF : Files fs L n ps top all)
    (hg : Good L [] (all.filter L.prio ++ top.filter fun c => !L.prio c)) :
    startup fs L (n + 1) ps = .done (all.filter L.prio ++ top.filter fun c => !L.prio c) := by
  obtain ⟨h1, h2⟩ := Good_append.mp hg
  unfold startup
  rw [run_files_first hI hF h1]
  simp only []
  exact run_files_second hI hF h2

/-- **C68** If a file of the command line, or one that is included, is not there or has a
line that is no command, the start fails and only commands with priority have been executed. -/
theorem cfgfile_bad_line (hI : ∀ c p, L.incl c = some p → L.prio c = true) (n : Nat) {ps : List String}
    {p q : String} (hp : p ∈ ps) (hr : Reach fs L p q) (hq : Bad fs L q) :
    (∀ h, startup fs L n ps ≠ .done h) ∧
    ∀ h rc l, startup fs L n ps = .failed h rc l → ∀ c ∈ h, L.prio c = true := by
  have hb := files_bad hI n hr hq hp (h := [])
  have hpr := files_prio (fs := fs) (L := L) n ps [] (fun _ h => nomatch h)
  unfold startup
  cases hr : runFiles fs L false n ps [] with
  | done h => exact absurd hr (hb h)
  | failed h rc l =>
    rw [hr] at hpr
    refine ⟨(fun _ h => nomatch h), ?_⟩
    rintro h' rc' l' ⟨⟩
    exact hpr
  | overrun => exact ⟨(fun _ h => nomatch h), fun _ _ _ h => nomatch h⟩
  | deep => exact ⟨(fun _ h => nomatch h), fun _ _ _ h => nomatch h⟩

/-- **C68** How deep files may be nested does not matter once it is enough. -/
theorem cfgfile_depth (init : Bool) (n k : Nat) (p : String) (h : List C)
    (hd : runFile fs L init n p h ≠ .deep) : runFile fs L init (n + k) p h = runFile fs L init n p h := by
  induction k with
  | zero => rfl
  | succ k ih =>
    rw [← Nat.add_assoc, file_deeper init (n + k) p h (by rw [ih]; exact hd), ih]

/-! ## Examples and defects -/

/-- A small language: `env` and `include` have priority, `include F` includes, `bad` is no
command, `fail` fails. -/
def exLang : Lang (List String) where
  parse t :=
    let ws := (words t).map String.ofList
    if ws.head? = some "bad" then .error 22 else .ok ws
  prio c := c.head? == some "env" || c.head? == some "include"
  incl c := if c.head? = some "include" then c[1]? else none
  rc _ c := if c.head? = some "fail" then 5 else 0

def exFs : String → Option (List Char)
  | "main" => some "prdcr_add x\nenv A=1\ninclude inc\nprdcr_start x\n".toList
  | "inc" => some "env B=2\nupdtr_add u\n".toList
  | "self" => some "include self\n".toList
  | "wrong" => some "env A=1\nload s\n\nfail x\nload t\n".toList
  | "gone" => some "include nowhere\n".toList
  | "bad" => some "load s\nbad\n".toList
  | _ => none

theorem ex_incl : ∀ c p, exLang.incl c = some p → exLang.prio c = true := by
  intro c p h
  simp only [exLang] at h ⊢
  split at h
  · rename_i hh
    simp [hh]
  · cases h

/-- Non-priority commands of an included file are not executed: the include itself has
priority, and is passed over when they are. -/
theorem cfgfile_include_defect (n : Nat) : startup exFs exLang (n + 2) ["main"] =
    .done [["env", "A=1"], ["include", "inc"], ["env", "B=2"], ["prdcr_add", "x"], ["prdcr_start", "x"]] := by
  have hs : scan "env B=2\nupdtr_add u\n".toList = [.line 1 "env B=2".toList, .line 2 "updtr_add u".toList] := by
    decide +kernel
  have hm : scan "prdcr_add x\nenv A=1\ninclude inc\nprdcr_start x\n".toList =
      [.line 1 "prdcr_add x".toList, .line 2 "env A=1".toList, .line 3 "include inc".toList,
        .line 4 "prdcr_start x".toList] := by decide +kernel
  have hE : ∀ k, Expands exFs exLang k (scan "env B=2\nupdtr_add u\n".toList) [["env", "B=2"], ["updtr_add", "u"]] := by
    intro k
    rw [hs]
    exact .plain (by rfl) (by rfl) (.plain (by rfl) (by rfl) .nil)
  have hF : Files exFs exLang (n + 1) ["main"]
      [["prdcr_add", "x"], ["env", "A=1"], ["include", "inc"], ["prdcr_start", "x"]]
      [["prdcr_add", "x"], ["env", "A=1"], ["include", "inc"], ["env", "B=2"], ["updtr_add", "u"], ["prdcr_start", "x"]] := by
    refine .cons (p := "main") (cs := [(1, ["prdcr_add", "x"]), (2, ["env", "A=1"]), (3, ["include", "inc"]),
      (4, ["prdcr_start", "x"])]) (ds := [["prdcr_add", "x"], ["env", "A=1"], ["include", "inc"], ["env", "B=2"],
        ["updtr_add", "u"], ["prdcr_start", "x"]]) (top := []) (all := []) rfl ?_ ?_ .nil
    · rw [hm]
      refine ⟨rfl, by rfl, rfl, by rfl, rfl, by rfl, rfl, by rfl, trivial⟩
    · rw [hm]
      refine .plain (by rfl) (by rfl) (.plain (by rfl) (by rfl) ?_)
      exact .incl (p := "inc") (ds := [["env", "B=2"], ["updtr_add", "u"]]) (by rfl) (by rfl) rfl (hE n)
        (.plain (by rfl) (by rfl) .nil)
  exact cfgfile_startup_partial ex_incl hF ⟨rfl, rfl, rfl, rfl, rfl, trivial⟩

/-- A file that includes itself is processed without end. -/
theorem cfgfile_self_include_defect (n : Nat) : startup exFs exLang n ["self"] = .deep := by
  have hm : scan "include self\n".toList = [.line 1 "include self".toList] := by decide +kernel
  have : ∀ n h, runFile exFs exLang false n "self" h = .deep := by
    intro n
    induction n with
    | zero => intro h; rfl
    | succ n ih =>
      intro h
      have e : exFs "self" = some "include self\n".toList := rfl
      simp only [runFile, e, hm]
      have hp : exLang.parse "include self".toList = .ok ["include", "self"] := by rfl
      have hq : exLang.prio ["include", "self"] = true := by rfl
      have hi : exLang.incl ["include", "self"] = some "self" := by rfl
      simp only [runLines, hp, hq, Bool.true_eq_false, if_false, hi, ih]
  simp only [startup, runFiles, this]

/-- Beside `cfgfile_pass`, `cfgfile_first_error` and `cfgfile_bad_line`. -/
example : Parsed exLang (scan "env A=1\nload s\n\nfail x\nload t\n".toList)
    [(1, ["env", "A=1"]), (2, ["load", "s"]), (4, ["fail", "x"]), (5, ["load", "t"])] := by
  have : scan "env A=1\nload s\n\nfail x\nload t\n".toList =
    [.line 1 "env A=1".toList, .line 2 "load s".toList, .line 4 "fail x".toList, .line 5 "load t".toList] := by
    decide +kernel
  rw [this]
  exact ⟨rfl, by rfl, rfl, by rfl, rfl, by rfl, rfl, by rfl, trivial⟩

example : startup exFs exLang 3 ["wrong"] = .failed [["env", "A=1"], ["load", "s"], ["fail", "x"]] 5 4 := by rfl

example : startup exFs exLang 3 ["main", "bad"] =
    .failed [["env", "A=1"], ["include", "inc"], ["env", "B=2"]] 22 2 := by rfl

example : Reach exFs exLang "gone" "nowhere" ∧ Bad exFs exLang "nowhere" ∧ Bad exFs exLang "bad" := by
  have h1 : scan "include nowhere\n".toList = [.line 1 "include nowhere".toList] := by decide +kernel
  have h2 : scan "load s\nbad\n".toList = [.line 1 "load s".toList, .line 2 "bad".toList] := by decide +kernel
  refine ⟨.incl (c := ["include", "nowhere"]) (no := 1) (t := "include nowhere".toList) .here
    (s := "include nowhere\n".toList) rfl (by rw [h1]; simp) (by rfl) (by rfl), ?_, ?_⟩
  · intro s h
    cases h
  · intro s h
    cases h
    exact ⟨2, "bad".toList, 22, by rw [h2]; simp, by rfl⟩

end Verif.CfgFile
