import Verif.JsonText.Back
import Verif.JsonText.Trunc
import Verif.JsonText.Accept

/-!
# C62: what the JSON parser, the printer and the copier keep

The texts and the values they say are those of `RowJson.readJson` (RFC 8259, `Verif/RowJson/Spec.lean`); what
an entity holds is in `Verif/JsonText/Spec.lean`.
-/

namespace Verif.JsonText

open Verif.RowJson (JVal readJson)

variable (fmt : Text → Text)

/-! ## Checking examples -/

mutual

/-- Equality of JSON values as a program. -/
def jeq : JVal → JVal → Bool
  | .null, .null => true
  | .bool a, .bool b => a == b
  | .num m x, .num m' x' => decide (m = m') && decide (x = x')
  | .str s, .str t => decide (s = t)
  | .arr l, .arr l' => jeqAll l l'
  | .obj l, .obj l' => jeqObj l l'
  | _, _ => false

def jeqAll : List JVal → List JVal → Bool
  | [], [] => true
  | a :: l, b :: l' => jeq a b && jeqAll l l'
  | _, _ => false

def jeqObj : List (Text × JVal) → List (Text × JVal) → Bool
  | [], [] => true
  | (k, a) :: l, (k', b) :: l' => decide (k = k') && jeq a b && jeqObj l l'
  | _, _ => false

end

mutual

theorem jeq_eq : (a b : JVal) → jeq a b = true → a = b
  | .null, b, h => by cases b <;> simp_all [jeq]
  | .bool x, b, h => by cases b <;> simp_all [jeq]
  | .num m x, b, h => by cases b <;> simp_all [jeq]
  | .str s, b, h => by cases b <;> simp_all [jeq]
  | .arr l, b, h => by
    cases b with
    | arr l' => rw [jeq] at h; rw [jeqAll_eq l l' h]
    | _ => simp [jeq] at h
  | .obj l, b, h => by
    cases b with
    | obj l' => rw [jeq] at h; rw [jeqObj_eq l l' h]
    | _ => simp [jeq] at h

theorem jeqAll_eq : (l l' : List JVal) → jeqAll l l' = true → l = l'
  | [], l', h => by cases l' <;> simp_all [jeqAll]
  | a :: l, l', h => by
    cases l' with
    | nil => simp [jeqAll] at h
    | cons b l' =>
      simp only [jeqAll, Bool.and_eq_true] at h
      rw [jeq_eq a b h.1, jeqAll_eq l l' h.2]

theorem jeqObj_eq : (l l' : List (Text × JVal)) → jeqObj l l' = true → l = l'
  | [], l', h => by cases l' <;> simp_all [jeqObj]
  | (k, a) :: l, l', h => by
    cases l' with
    | nil => simp [jeqObj] at h
    | cons p l' =>
      obtain ⟨k', b⟩ := p
      simp only [jeqObj, Bool.and_eq_true, decide_eq_true_eq] at h
      rw [h.1.1, jeq_eq a b h.1.2, jeqObj_eq l l' h.2]

end

theorem reads_is {s : Text} {v : JVal} (h : ((readJson s).any (jeq · v)) = true) : readJson s = some v := by
  cases hr : readJson s with
  | none => rw [hr] at h; cases h
  | some w => rw [hr] at h; rw [jeq_eq w v h]

theorem reads_none {s : Text} (h : (readJson s).isNone = true) : readJson s = none :=
  Option.isNone_iff_eq_none.mp h

/-! ## Reading -/

/-- A JSON text without a backslash, whose integers are of 64 bits and in whose objects no name is, or starts,
a name before it, is taken and what is made of it holds what the text says.  Missing for the full claim:
escapes (see `escape_defect`), names that start others (`prefix_defect`), larger integers (`range_defect`) and
the refusal of what is no JSON (`accepts_defect`). -/
theorem parse_reads_partial {s : Text} {v : JVal} (h : readJson s = some v) (hb : '\\' ∉ s) (hf : Fits v) :
    ∃ e, parse s = some e ∧ Holds v e := by
  unfold readJson at h
  split at h
  · rename_i v' r hv
    split at h
    · cases h
      exact parse_ok hv hb hf
    · cases h
  · cases h

/-- `{"a": [1, -2.5e3, "x"], "b": {"c": null}}` with spaces in it. -/
example : readJson " { \"a\" : [1, -2.5e3 , \"x\"],\"b\":{ \"c\":null} }".toList =
    some (.obj [("a".toList, .arr [.num 1 0, .num (-25) 2, .str "x".toList]),
      ("b".toList, .obj [("c".toList, .null)])]) := reads_is (by decide +kernel)

example : Fits (.obj [("a".toList, .arr [.num 1 0, .num (-25) 2, .str "x".toList]),
    ("b".toList, .obj [("c".toList, .null)])]) := by
  simp [Fits, FitsAll, FitsObj]

/-- Every JSON text is taken, whatever its escapes, names and numbers. -/
theorem json_accepted {s : Text} {v : JVal} (h : readJson s = some v) :
    verify s = true ∧ ∃ e, parse s = some e := by
  unfold readJson at h
  split at h
  · rename_i v' r hv
    obtain ⟨e, he⟩ := parse_some hv
    exact ⟨by rw [verify, he]; rfl, e, he⟩
  · cases h

/-- A JSON string is read as the text between its quotes: undoing the escapes of that gives what the string
says. -/
theorem string_raw {s k : Text} (h : readJson s = some (.str k)) :
    ∃ raw, parse s = some (.str raw) ∧ RowJson.string (raw ++ ['"']) = some (k, []) := by
  unfold readJson at h
  split at h
  · rename_i v' r hv
    split at h
    · cases h
      exact parse_raw hv
    · cases h
  · cases h

/-- All escapes in one string. -/
example : readJson "\"\\u0041\\\"\\\\\\/\\b\\f\\n\\r\\t\"".toList =
    some (.str ['A', '"', '\\', '/', Char.ofNat 8, Char.ofNat 12, '\n', '\r', '\t']) :=
  reads_is (by decide +kernel)

theorem holds_names : ∀ {l : List (Text × JVal)} {d : List (Text × Ent)}, HoldsObj l d →
    ∀ p ∈ d, ∃ w, (p.1, w) ∈ l := by
  intro l
  induction l with
  | nil => intro d h p hp; cases h; cases hp
  | cons q l ih =>
    intro d h p hp
    cases h with
    | cons h1 h2 =>
      rcases List.mem_cons.mp hp with rfl | hp
      · exact ⟨_, List.mem_cons_self⟩
      · obtain ⟨w, hw⟩ := ih h2 p hp
        exact ⟨w, List.mem_cons_of_mem _ hw⟩

/-- Every member of an object is found under its name, if no name starts another. -/
theorem member_found_partial {l : List (Text × JVal)} {d : List (Text × Ent)} (h : Holds (.obj l) (.dict d))
    (hp : l.Pairwise fun a b => ¬ b.1 <+: a.1 ∧ ¬ a.1 <+: b.1) {k : Text} {v : JVal} (hm : (k, v) ∈ l) :
    ∃ e, valueFind d k = some e ∧ Holds v e := by
  cases h with
  | @obj _ _ d' h1 h2 =>
    have key : ∀ {l : List (Text × JVal)} {d' : List (Text × Ent)}, HoldsObj l d' →
        l.Pairwise (fun a b => ¬ b.1 <+: a.1 ∧ ¬ a.1 <+: b.1) → (k, v) ∈ l →
        ∃ e, (k, e) ∈ d' ∧ Holds v e ∧ ∀ p ∈ d', k <+: p.1 → p = (k, e) := by
      intro l
      induction l with
      | nil => intro d' _ _ hm; cases hm
      | cons q l ih =>
        intro d' ho hp hm
        cases ho with
        | @cons k1 v1 e1 _ d1 hh ho =>
          rw [List.pairwise_cons] at hp
          have names := holds_names ho
          rcases List.mem_cons.mp hm with heq | hm
          · simp only [Prod.mk.injEq] at heq
            obtain ⟨rfl, rfl⟩ := heq
            refine ⟨e1, by simp, hh, ?_⟩
            intro p hpm hpre
            rcases List.mem_cons.mp hpm with rfl | hpm
            · rfl
            · obtain ⟨w, hw⟩ := names p hpm
              exact absurd hpre (hp.1 _ hw).2
          · obtain ⟨e, h1, h2, h3⟩ := ih ho hp.2 hm
            refine ⟨e, List.mem_cons_of_mem _ h1, h2, ?_⟩
            intro p hpm hpre
            rcases List.mem_cons.mp hpm with rfl | hpm
            · exact absurd hpre (hp.1 _ hm).1
            · exact h3 p hpm hpre
    obtain ⟨e, a, b, c⟩ := key h1 hp hm
    refine ⟨e, ?_, b⟩
    unfold valueFind attrFind
    cases hf : d.find? (hit k) with
    | none =>
      rw [List.find?_eq_none] at hf
      have := hf (k, e) (h2.mem_iff.mp a)
      simp [hit] at this
    | some p =>
      have h4 := List.find?_some hf
      have h5 := List.mem_of_find?_eq_some hf
      simp only [hit, Bool.and_eq_true, decide_eq_true_eq, List.isPrefixOf_iff_prefix] at h4
      rw [c p (h2.mem_iff.mpr h5) h4.2]
      rfl

example : ∃ l d, Holds (.obj l) (.dict d) ∧ (l.Pairwise fun a b => ¬ b.1 <+: a.1 ∧ ¬ a.1 <+: b.1) ∧
    ("b".toList, .bool true) ∈ l ∧ l.length = 2 :=
  ⟨[("a".toList, .num 1 0), ("b".toList, .bool true)], [("b".toList, .bool true), ("a".toList, .int 1)],
    .obj (.cons (.int 1) (.cons (.bool true) .nil)) (.swap _ _ _), by decide, by simp, rfl⟩

/-! ## Printing -/

/-- An entity whose text is shorter than the buffer is printed as that text. -/
theorem dump_short {e : Ent} (h : (text fmt e).length < 8192) : entityDump fmt e = some (text fmt e) := by
  have := dump_fits (fmt := fmt) e jbufNew (by simpa [jbufNew] using h)
  unfold entityDump
  have e0 : jbufNew.addr = 0 := rfl
  rw [e0] at this
  rw [this]
  simp [jbufNew]

/-- What is printed of an entity is JSON that says what the entity says, if its strings need no escapes and
its floating point numbers are finite. -/
theorem dump_json {e : Ent} (h : Sane fmt e) (hl : (text fmt e).length < 8192) :
    ∃ t, entityDump fmt e = some t ∧ readJson t = some (meaning fmt e) :=
  ⟨_, dump_short fmt hl, RowJson.readJson_of (textOk e h).reads⟩

/-- What is printed of an entity is read back as what the entity says.  Missing for the full claim: texts of
8192 bytes or more (`dump_long_defect`), strings that need escapes (`escape_defect`) and floating point
numbers that are not finite. -/
theorem dump_parse_partial {e : Ent} (h : Sane fmt e) (hl : (text fmt e).length < 8192) :
    ∃ t e', entityDump fmt e = some t ∧ parse t = some e' ∧ Holds (meaning fmt e) e' := by
  have ht := textOk e h
  obtain ⟨e', h1, h2⟩ := parse_reads_partial (RowJson.readJson_of ht.reads) ht.bs ht.fits
  exact ⟨_, e', dump_short fmt hl, h1, h2⟩

/-- What is printed of an entity without floating point numbers is read back as an entity with the same
contents, an integer as an integer.  Missing for the full claim: as for `dump_parse_partial`. -/
theorem dump_same_partial {e : Ent} (h : Sane fmt e) (hn : NoFlt e) (hl : (text fmt e).length < 8192) :
    ∃ t e', entityDump fmt e = some t ∧ parse t = some e' ∧ Same e e' := by
  obtain ⟨e', h1, h2⟩ := parse_back h hn (r := []) trivial
  rw [List.append_nil] at h1
  exact ⟨_, e', dump_short fmt hl, h1, h2⟩

example : NoFlt (.dict [("b".toList, .list [.int (-7), .str "x y".toList, .null])]) :=
  ⟨⟨trivial, trivial, trivial, trivial⟩, trivial⟩

/-- A dictionary with a number, a list, a string and a floating point number. -/
def sample : Ent := .dict [("b".toList, .list [.int (-7), .str "x y".toList, .null]),
  ("f".toList, .flt "1.5".toList), ("a".toList, .dict [])]

example : Sane id sample ∧ (text id sample).length < 8192 := by
  refine ⟨?_, ?_⟩
  · refine ⟨⟨by unfold RowJson.Plain RowJson.plainChar; decide, ⟨by unfold Sane; decide, by unfold Sane RowJson.Plain RowJson.plainChar; decide,
      trivial, trivial⟩, by unfold RowJson.Plain RowJson.plainChar; decide, ⟨⟨.num 15 (-1), rfl⟩, ?_⟩,
      by unfold RowJson.Plain RowJson.plainChar; decide, ⟨trivial, .nil⟩, trivial⟩, by decide⟩
    have : RowJson.numVal "1.5".toList = .num 15 (-1) := rfl
    show Fits (RowJson.numVal "1.5".toList)
    rw [this]
    simp [Fits]
  · have : decInt (-7) = ['-', '7'] := by simp [decInt, decNat, digit]
    simp [sample, text, textAll, textObj, this]

/-- A list or a dictionary whose text is as long as the buffer or longer cannot be printed: the buffer is
moved and its old place is used. -/
theorem dump_long_defect {e : Ent} (hc : e.compound) (hl : 8192 ≤ (text fmt e).length) :
    entityDump fmt e = none := by
  unfold entityDump
  split
  · rfl
  · rename_i b jb h
    have hk := dump_kept e h
    have hj : jb = 0 := by
      cases e with
      | list l =>
        rw [dump] at h
        split at h
        · cases h
        · obtain ⟨_, _, hp⟩ := Option.map_eq_some_iff.mp h
          cases hp; rfl
      | dict d =>
        rw [dump] at h
        split at h
        · cases h
        · obtain ⟨_, _, hp⟩ := Option.map_eq_some_iff.mp h
          cases hp; rfl
      | int v => cases hc
      | bool v => cases hc
      | flt v => cases hc
      | str v => cases hc
      | null => cases hc
    split
    · rename_i hb
      exfalso
      have h1 : b.addr = jbufNew.addr := by rw [← hb, hj]; rfl
      have h2 := (hk.2.2 h1).2 (by decide)
      rw [hk.2.1] at h2
      have h3 : jbufNew.text = [] := rfl
      have h4 : jbufNew.cap = 8192 := rfl
      rw [h3, h4, List.nil_append] at h2
      omega
    · rfl

example : Ent.compound (.list [.str (List.replicate 8190 'x')]) ∧
    8192 ≤ (text id (.list [.str (List.replicate 8190 'x')])).length := by
  refine ⟨trivial, ?_⟩
  rw [text, textAll, text]
  simp only [List.length_cons, List.length_append, List.length_replicate]
  omega

/-- A number, a string or a word of any length is printed. -/
theorem dump_scalar {e : Ent} (hc : ¬ e.compound) : entityDump fmt e = some (text fmt e) := by
  have key : ∀ t, append jbufNew 0 t = some (⟨0, 8192, t⟩, 0) ∨
      append jbufNew 0 t = some (⟨1, 8192 + t.length + 8192, t⟩, 1) := by
    intro t
    unfold append
    rw [if_neg (by decide)]
    split
    · exact .inr rfl
    · exact .inl rfl
  have fin : ∀ t, dump fmt e jbufNew 0 = append jbufNew 0 t → entityDump fmt e = some t := by
    intro t h
    unfold entityDump
    rw [h]
    rcases key t with h | h <;> rw [h] <;> rfl
  cases e with
  | list l => exact absurd trivial hc
  | dict l => exact absurd trivial hc
  | int v => exact fin _ rfl
  | bool v => cases v <;> exact fin _ rfl
  | flt v => exact fin _ rfl
  | str v => exact fin _ rfl
  | null => exact fin _ rfl

example : ¬ (Ent.str (List.replicate 9000 'x')).compound := id

/-! ## Texts cut short -/

/-- A list or a dictionary cut short anywhere is refused.  Missing for the full claim: strings and names with
closing brackets in them (`cut_defect`). -/
theorem cut_refused_partial {e : Ent} (hc : e.compound) (h : Sane fmt e) (hn : NoClose e) {p r : Text}
    (hp : p ++ r = text fmt e) (hr : r ≠ []) : parse p = none ∧ verify p = false := by
  have h1 : parse p = none := by
    refine parse_cut hc h hn ⟨r, hp⟩ ?_
    intro hx
    rw [hx] at hp
    exact hr (List.append_cancel_left (as := text fmt e) (by rw [hp, List.append_nil]))
  exact ⟨h1, by rw [verify, h1]; rfl⟩

example : NoClose sample ∧ sample.compound := by
  refine ⟨?_, trivial⟩
  simp [sample, NoClose, NoCloseAll, NoCloseObj]

/-- The text `["a]b"]` cut before its second quote is taken for the empty list. -/
theorem cut_defect : ∃ (e : Ent) (p r : Text), e.compound ∧ Sane fmt e ∧ p ++ r = text fmt e ∧ r ≠ [] ∧
    parse p = some (.list []) :=
  ⟨.list [.str "a]b".toList], "[\"a]b".toList, "\"]".toList, trivial,
    ⟨by unfold Sane RowJson.Plain RowJson.plainChar; decide, trivial⟩, by simp [text, textAll], by simp, rfl⟩

/-! ## Copies -/

/-- A copy has the contents of what was copied, if in no dictionary a name starts a name listed before it.
Missing for the full claim: names that start others (`copy_defect`). -/
theorem copy_partial {e : Ent} (h : NoPrefix e) : Same e (copy e) := copy_same e h

example : NoPrefix sample := by
  simp [sample, NoPrefix, NoPrefixAll, NoPrefixObj]

def longName : Text := "job_id1".toList

def shortName : Text := "job".toList

theorem bucket_long : bucket longName = 0 := by decide +kernel

theorem bucket_short : bucket shortName = 0 := by decide +kernel

theorem add_short (v w : Ent) : attrAdd (attrAdd [] longName v) shortName w = [(shortName, w)] := by
  have h : shortName.isPrefixOf longName = true := by decide
  simp [attrAdd, hit, attrIns, bucket_long, bucket_short, h]

theorem add_long (v w : Ent) :
    attrAdd (attrAdd [] shortName v) longName w = [(longName, w), (shortName, v)] := by
  have h : longName.isPrefixOf shortName = false := by decide
  simp [attrAdd, hit, attrIns, bucket_long, bucket_short, h]

theorem parse_short {s k k' : Text} (h : lex s = [.lc, .str k, .colon, .int ['2'], .comma, .str k', .colon,
    .int ['1'], .rc]) : parse s = some (.dict (attrAdd (attrAdd [] k (.int 2)) k' (.int 1))) := by
  rw [parse, h]
  simp [pvalue, pattr, pattrs, strtoll, magnitude, foldBase, clamp]

/-- A dictionary made by the parser with two names, of which one starts the other, is copied without one of
them. -/
theorem copy_defect : ∃ s d, parse s = some (.dict d) ∧ d = [("job_id1".toList, .int 1), ("job".toList, .int 2)] ∧
    copy (.dict d) = .dict [("job".toList, .int 2)] := by
  refine ⟨"{\"job\":2,\"job_id1\":1}".toList, _, parse_short (k := shortName) (k' := longName)
    (by decide +kernel), add_long _ _, ?_⟩
  rw [add_long, copy, copyDict, copyDict, copyDict, add_short]
  rfl

/-! ## What is lost and what is let in -/

/-- Of two members of an object one is lost if its name goes on where the other's ends. -/
theorem prefix_defect : ∃ s, readJson s = some (.obj [("job_id1".toList, .num 2 0), ("job".toList, .num 1 0)]) ∧
    parse s = some (.dict [("job".toList, .int 1)]) :=
  ⟨"{\"job_id1\":2,\"job\":1}".toList, reads_is (by decide +kernel), by
    rw [parse_short (k := longName) (k' := shortName) (by decide +kernel), add_short]; rfl⟩

/-- Escapes are not undone: the string of a newline is read as a backslash and an `n`. -/
theorem escape_defect : ∃ s, readJson s = some (.str ['\n']) ∧ parse s = some (.str ['\\', 'n']) :=
  ⟨"\"\\n\"".toList, reads_is (by decide +kernel), rfl⟩

/-- A string with a quote in it is printed as a text that is no JSON and is read back as another. -/
theorem escape_dump_defect : entityDump fmt (.str ['a', '"', 'b']) = some "\"a\"b\"".toList ∧
    readJson "\"a\"b\"".toList = none ∧ parse "\"a\"b\"".toList = some (.str ['a']) :=
  ⟨dump_scalar fmt id, reads_none (by decide +kernel), rfl⟩

/-- An integer that does not fit is brought to the largest that does. -/
theorem range_defect : ∃ s, readJson s = some (.num (2 ^ 63) 0) ∧ parse s = some (.int (2 ^ 63 - 1)) :=
  ⟨"9223372036854775808".toList, reads_is (by decide +kernel), rfl⟩

theorem parse_one {s : Text} (h : lex s = [.lb, .int ['1'], .rb]) : parse s = some (.list [.int 1]) := by
  rw [parse, h]
  simp [pvalue, pitem, pitems, strtoll, magnitude, foldBase, clamp]

/-- What is no JSON is taken: text after the value, a comma before the first element, unknown characters,
single quotes, a string that does not end, an integer in octal, and a number without digits. -/
theorem accepts_defect :
    (readJson "{} junk".toList = none ∧ parse "{} junk".toList = some (.dict [])) ∧
    (readJson "[,1]".toList = none ∧ parse "[,1]".toList = some (.list [.int 1])) ∧
    (readJson "[1 # x]".toList = none ∧ parse "[1 # x]".toList = some (.list [.int 1])) ∧
    (readJson "'a'".toList = none ∧ parse "'a'".toList = some (.str ['a'])) ∧
    (readJson "[\"]".toList = none ∧ parse "[\"]".toList = some (.list [])) ∧
    (readJson "010".toList = none ∧ parse "010".toList = some (.int 8)) ∧
    (readJson "-".toList = none ∧ parse "-".toList = some (.flt ['-'])) := by
  refine ⟨⟨?_, rfl⟩, ⟨?_, rfl⟩, ⟨?_, parse_one (by decide +kernel)⟩, ⟨?_, rfl⟩, ⟨?_, rfl⟩, ⟨?_, rfl⟩, ⟨?_, rfl⟩⟩ <;> exact reads_none (by decide +kernel)

end Verif.JsonText
