import Verif.Dir.Spec
import Verif.JsonText.Props

/-!
# Showing one set
-/

namespace Verif.Dir

open Verif.JsonText (Ent decInt decNat valueFind text textAll textObj meaning Sane SaneAll SaneObj Holds HoldsAll HoldsObj)
open Verif.RowJson (JVal Plain joined memText)

/-- The number printed. -/
def si (n : Nat) : Int := if n < 2 ^ 31 then n else (n : Int) - 2 ^ 32

/-- The entity of a pair. -/
def pairEnt (p : Text × Text) : Ent := .dict [("key".toList, .str p.1), ("value".toList, .str p.2)]

/-- The entity of two numbers. -/
def timeEnt (a b : Nat) : Ent := .dict [("sec".toList, .int (si a)), ("usec".toList, .int (si b))]

def fields (s : SetRec) : List (Text × Ent) :=
  [("name".toList, .str s.name), ("schema".toList, .str s.schema), ("digest".toList, .str s.digest),
   ("flags".toList, .str (flagStr s)), ("meta_size".toList, .int (si s.metaSz)),
   ("data_size".toList, .int (si s.dataSz)), ("heap_size".toList, .int (si s.heapSz)),
   ("uid".toList, .int (si s.uid)), ("gid".toList, .int (si s.gid)), ("perm".toList, .str (permStr s.perm)),
   ("card".toList, .int (si s.card)), ("array_card".toList, .int (si s.arrayCard)),
   ("meta_gn".toList, .int s.metaGn), ("data_gn".toList, .int s.dataGn),
   ("timestamp".toList, timeEnt s.sec s.usec), ("duration".toList, timeEnt s.dsec s.dusec)]

/-- The entity printed for a set. -/
def entry (s : SetRec) : Ent := .dict (fields s ++ [("info".toList, .list ((infos s).map pairEnt))])

theorem commaSep_joined : ∀ l : List Text, commaSep l = joined l := by
  intro l
  induction l with
  | nil => rfl
  | cons t l ih =>
    cases l with
    | nil => simp [commaSep, joined]
    | cons u l => rw [commaSep, ih]; simp [joined]; simp

theorem commaSep_last (l : List Text) (a b : Text) : commaSep (l ++ [a]) ++ b = commaSep (l ++ [a ++ b]) := by
  induction l with
  | nil => rfl
  | cons t l ih =>
    cases l with
    | nil => simp [commaSep]
    | cons u l =>
      simp only [List.cons_append, commaSep] at ih ⊢
      rw [List.append_assoc, List.cons_append, ih]

theorem fStr_mem (k : String) (v : Text) : fStr k v = memText k.toList (text id (.str v)) := by
  simp [fStr, memText, text]

theorem fNum_int (k : String) (n : Nat) : fNum k (sd n) = memText k.toList (text id (.int (si n))) := by
  simp [fNum, memText, text, sd, si]

theorem fNum_nat (k : String) (n : Nat) : fNum k (decNat n) = memText k.toList (text id (.int (n : Int))) := by
  have : ¬ ((n : Int) < 0) := by omega
  simp [fNum, memText, text, decInt, this]

theorem fNum_time (k : String) (a b : Nat) :
    fNum k ('{' :: commaSep [fNum "sec" (sd a), fNum "usec" (sd b)] ++ ['}']) =
      memText k.toList (text id (timeEnt a b)) := by
  rw [timeEnt, text, JsonText.textObj_joined, commaSep_joined, fNum_int, fNum_int]
  rfl

theorem members_eq (s : SetRec) : members s = (fields s).map fun p => memText p.1 (text id p.2) := by
  simp only [members, fields, List.map_cons, List.map_nil, fNum_time]
  simp only [fStr_mem, fNum_int, fNum_nat]

theorem infoText_eq (p : Text × Text) : infoText p = text id (pairEnt p) := by
  rw [pairEnt, text, JsonText.textObj_joined]
  simp [infoText, fStr, joined, memText, text]

theorem infoPieces_eq (l : List (Text × Text)) :
    (infoPieces l).flatten = joined ((l.map pairEnt).map (text id)) := by
  cases l with
  | nil => rfl
  | cons p l =>
    simp only [infoPieces, List.flatten_cons, infoText_eq, List.map_cons, joined, List.map_map]
    congr 1
    induction l with
    | nil => rfl
    | cons q l ih => simp [ih, Function.comp_def]

/-- All of the text. -/
theorem full_eq (s : SetRec) :
    headText s ++ (infoPieces (infos s)).flatten ++ [']', '}'] = text id (entry s) := by
  rw [entry, text, JsonText.textObj_joined, headText, infoPieces_eq, List.map_append, ← members_eq]
  generalize hJ : joined (((infos s).map pairEnt).map (text id)) = J
  have hl : memText "info".toList (text id (.list ((infos s).map pairEnt))) = fNum "info" ['['] ++ (J ++ [']']) := by
    rw [text, JsonText.textAll_joined, hJ]; rfl
  simp only [List.map_cons, List.map_nil]
  rw [hl, ← commaSep_joined, ← commaSep_last]
  simp

def plainB (s : Text) : Bool := s.all fun c => decide (32 ≤ c.toNat ∧ c ≠ '"' ∧ c ≠ '\\')

theorem plain_dec {s : Text} (h : plainB s = true) : Plain s := by
  intro c hc
  have := List.all_eq_true.mp h c hc
  simp only [decide_eq_true_eq] at this
  exact this

theorem sane_time {a b : Nat} (ha : a < 2 ^ 32) (hb : b < 2 ^ 32) : Sane id (timeEnt a b) := by
  simp only [timeEnt, Sane, SaneObj]
  refine ⟨⟨plain_dec (by decide), ?_, plain_dec (by decide), ?_, trivial⟩, by simp [List.pairwise_cons]⟩ <;>
    · unfold si; split <;> omega

theorem sane_pair {p : Text × Text} (h : Plain p.1 ∧ Plain p.2) : Sane id (pairEnt p) := by
  simp only [pairEnt, Sane, SaneObj]
  exact ⟨⟨plain_dec (by decide), h.1, plain_dec (by decide), h.2, trivial⟩, by simp [List.pairwise_cons]⟩

theorem saneAll_of {l : List Ent} (h : ∀ e ∈ l, Sane id e) : SaneAll id l := by
  induction l with
  | nil => trivial
  | cons e l ih => exact ⟨h e (by simp), ih fun e he => h e (by simp [he])⟩

theorem saneObj_of {d : List (Text × Ent)} (h : ∀ p ∈ d, Plain p.1 ∧ Sane id p.2) : SaneObj id d := by
  induction d with
  | nil => trivial
  | cons p d ih =>
    obtain ⟨k, e⟩ := p
    exact ⟨(h (k, e) (by simp)).1, (h (k, e) (by simp)).2, ih fun p hp => h p (by simp [hp])⟩

theorem infos_plain {s : SetRec} (h : Ordinary s) : ∀ p ∈ infos s, Plain p.1 ∧ Plain p.2 := by
  intro p hp
  rcases List.mem_append.mp hp with hp | hp
  · exact h.linfo p hp
  · exact h.rinfo p (List.mem_filter.mp hp).1

theorem plain_of {s : Text} (h : ∀ c ∈ s, c ∈ ['-', 'r', 'w', 'x', 'C', 'L', 'R', 'P', ' ']) : Plain s := by
  intro c hc
  have := h c hc
  simp only [List.mem_cons, List.not_mem_nil, or_false] at this
  rcases this with rfl | rfl | rfl | rfl | rfl | rfl | rfl | rfl | rfl <;> unfold RowJson.plainChar <;> decide

theorem perm_plain (p : Nat) : Plain (permStr p) := by
  apply plain_of
  have key : ∀ m, ∀ c ∈ rwx m, c ∈ ['-', 'r', 'w', 'x', 'C', 'L', 'R', 'P', ' '] := by
    intro m c hc
    simp only [rwx, List.mem_cons, List.not_mem_nil, or_false] at hc
    rcases hc with rfl | rfl | rfl <;> split <;> decide
  intro c hc
  simp only [permStr, List.mem_cons, List.mem_append] at hc
  rcases hc with rfl | (hc | hc) | hc
  · decide
  all_goals exact key _ _ hc

theorem flag_plain (s : SetRec) : Plain (flagStr s) := by
  apply plain_of
  intro c hc
  simp only [flagStr, List.mem_cons, List.not_mem_nil, or_false] at hc
  rcases hc with rfl | rfl | rfl <;> split <;> decide

/-- The names of the members. -/
def names : List Text :=
  ["name", "schema", "digest", "flags", "meta_size", "data_size", "heap_size", "uid", "gid", "perm", "card",
    "array_card", "meta_gn", "data_gn", "timestamp", "duration", "info"].map String.toList

theorem names_eq (s : SetRec) :
    (fields s ++ [("info".toList, Ent.list ((infos s).map pairEnt))]).map Prod.fst = names := rfl

theorem names_apart : names.Pairwise fun a b => ¬ b <+: a ∧ ¬ a <+: b := by decide +kernel

theorem names_plain : ∀ k ∈ names, plainB k = true := by decide +kernel

theorem sane_entry {s : SetRec} (h : Ordinary s) : Sane id (entry s) := by
  have hi : ∀ n, n < 2 ^ 32 → Sane id (.int (si n)) := by
    intro n hn
    simp only [Sane, si]
    split <;> omega
  have h31 : ∀ n, n < 2 ^ 31 → n < 2 ^ 32 := by intros; omega
  have hn : ∀ n : Nat, n < 2 ^ 63 → Sane id (.int (n : Int)) := by
    intro n hn
    simp only [Sane]
    omega
  have hs : ∀ t : Text, Plain t → Sane id (.str t) := fun t ht => by simpa only [Sane] using ht
  refine ⟨saneObj_of ?_, ?_⟩
  · intro p hp
    constructor
    · have : p.1 ∈ names := names_eq s ▸ List.mem_map_of_mem hp
      exact plain_dec (names_plain _ this)
    · simp only [fields, List.mem_cons, List.not_mem_nil, or_false, List.cons_append, List.nil_append] at hp
      rcases hp with rfl | rfl | rfl | rfl | rfl | rfl | rfl | rfl | rfl | rfl | rfl | rfl | rfl | rfl | rfl | rfl | rfl
      · exact hs _ h.name
      · exact hs _ h.schema
      · exact hs _ h.digest
      · exact hs _ (flag_plain s)
      · exact hi _ (h31 _ h.metaSz)
      · exact hi _ (h31 _ h.dataSz)
      · exact hi _ (h31 _ h.heapSz)
      · exact hi _ h.uid
      · exact hi _ h.gid
      · exact hs _ (perm_plain _)
      · exact hi _ (h31 _ h.card)
      · exact hi _ (h31 _ h.arrayCard)
      · exact hn _ h.metaGn
      · exact hn _ h.dataGn
      · exact sane_time h.sec h.usec
      · exact sane_time h.dsec h.dusec
      · simp only [Sane]
        apply saneAll_of
        intro e he
        obtain ⟨p, hp, rfl⟩ := List.mem_map.mp he
        exact sane_pair (infos_plain h p hp)
  · have := names_apart
    rw [← names_eq s, List.pairwise_map] at this
    exact this.imp fun h => h.1

/-! ## Reading it -/

open Verif.JsonText (Same SameAll SameObj NoFlt NoFltAll NoFltObj)

theorem same_mem {d d' : List (Text × Ent)} (h : SameObj d d') : ∀ p ∈ d', ∃ e, (p.1, e) ∈ d := by
  induction d generalizing d' with
  | nil => cases h; intro p hp; cases hp
  | cons q d ih =>
    cases h with
    | cons h1 h2 =>
      intro p hp
      rcases List.mem_cons.mp hp with rfl | hp
      · exact ⟨_, List.mem_cons_self⟩
      · obtain ⟨e, he⟩ := ih h2 p hp
        exact ⟨e, List.mem_cons_of_mem _ he⟩

theorem same_found {d : List (Text × Ent)} {x : Ent} (h : Same (.dict d) x)
    (hp : d.Pairwise fun a b => ¬ b.1 <+: a.1 ∧ ¬ a.1 <+: b.1) {k : String} {v : Ent} (hm : (k.toList, v) ∈ d) :
    ∃ e, find x k = some e ∧ Same v e := by
  cases h with
  | @dict _ d1 d' h1 h2 =>
    have key : ∀ {l d1 : List (Text × Ent)}, SameObj l d1 →
        l.Pairwise (fun a b => ¬ b.1 <+: a.1 ∧ ¬ a.1 <+: b.1) → (k.toList, v) ∈ l →
        ∃ e, (k.toList, e) ∈ d1 ∧ Same v e ∧ ∀ p ∈ d1, k.toList <+: p.1 → p = (k.toList, e) := by
      intro l
      induction l with
      | nil => intro d' _ _ hm; cases hm
      | cons q l ih =>
        intro d' ho hp hm
        cases ho with
        | @cons k1 v1 e1 _ d1 hh ho =>
          rw [List.pairwise_cons] at hp
          have names := same_mem ho
          rcases List.mem_cons.mp hm with heq | hm
          · simp only [Prod.mk.injEq] at heq
            obtain ⟨heq, rfl⟩ := heq
            rw [← heq] at hp ⊢
            refine ⟨e1, by simp, hh, ?_⟩
            intro p hpm hpre
            rcases List.mem_cons.mp hpm with rfl | hpm
            · rfl
            · obtain ⟨w, hw⟩ := names p hpm
              exact absurd hpre (hp.1 _ hw).2
          · obtain ⟨e, h1, h2, h3⟩ := ih ho hp.2 hm
            refine ⟨e, List.mem_cons_of_mem _ h1, h2, ?_⟩
            intro p hpm hpre
            rcases List.mem_cons.mp hpm with rfl | hpm
            · exact absurd hpre (hp.1 _ hm).1
            · exact h3 p hpm hpre
    obtain ⟨e, a, b, c⟩ := key h1 hp hm
    refine ⟨e, ?_, b⟩
    show valueFind d' k.toList = some e
    unfold valueFind JsonText.attrFind
    cases hf : d'.find? (JsonText.hit k.toList) with
    | none =>
      rw [List.find?_eq_none] at hf
      have := hf (k.toList, e) (h2.mem_iff.mp a)
      simp [JsonText.hit] at this
    | some p =>
      have h4 := List.find?_some hf
      have h5 := List.mem_of_find?_eq_some hf
      simp only [JsonText.hit, Bool.and_eq_true, decide_eq_true_eq, List.isPrefixOf_iff_prefix] at h4
      rw [c p (h2.mem_iff.mpr h5) h4.2]
      rfl

theorem strOf_same {v : Text} {o : Option Ent} (h : ∃ x, o = some x ∧ Same (.str v) x) : strOf o = some v := by
  obtain ⟨x, rfl, hx⟩ := h
  cases hx
  rfl

theorem digestOf_same {v : Text} {o : Option Ent} (h : ∃ x, o = some x ∧ Same (.str v) x) :
    digestOf o = some v := by
  obtain ⟨x, rfl, hx⟩ := h
  cases hx
  rfl

theorem intOf_same {v : Int} {o : Option Ent} (h : ∃ x, o = some x ∧ Same (.int v) x) : intOf o = some v := by
  obtain ⟨x, rfl, hx⟩ := h
  cases hx
  rfl

theorem heapOf_same {v : Int} {o : Option Ent} (h : ∃ x, o = some x ∧ Same (.int v) x) : heapOf o = some v := by
  obtain ⟨x, rfl, hx⟩ := h
  cases hx
  rfl

theorem decodeInfos_same : ∀ {l : List (Text × Text)} {es : List Ent}, SameAll (l.map pairEnt) es →
    decodeInfos es = some l := by
  intro l
  induction l with
  | nil => intro es h; cases h; rfl
  | cons p l ih =>
    intro es h
    cases h with
    | cons h1 h2 =>
      have hp : [("key".toList, Ent.str p.1), ("value".toList, Ent.str p.2)].Pairwise
          fun a b => ¬ b.1 <+: a.1 ∧ ¬ a.1 <+: b.1 := by simp [List.pairwise_cons]
      have k := strOf_same (same_found h1 hp (k := "key") (v := .str p.1) (by simp))
      have v := strOf_same (same_found h1 hp (k := "value") (v := .str p.2) (by simp))
      rw [decodeInfos, k, v, ih h2]

theorem time_same {a b : Nat} {x : Ent} (h : Same (timeEnt a b) x) :
    intOf (find x "sec") = some (si a) ∧ intOf (find x "usec") = some (si b) := by
  have hp : [("sec".toList, Ent.int (si a)), ("usec".toList, Ent.int (si b))].Pairwise
      fun a b => ¬ b.1 <+: a.1 ∧ ¬ a.1 <+: b.1 := by simp [List.pairwise_cons]
  exact ⟨intOf_same (same_found h hp (k := "sec") (by simp)), intOf_same (same_found h hp (k := "usec") (by simp))⟩

theorem toU64_si {n : Nat} (h : n < 2 ^ 31) : toU64 (si n) = n := by
  unfold toU64 si
  rw [if_pos h]
  omega

theorem toU32_si {n : Nat} (h : n < 2 ^ 32) : toU32 (si n) = n := by
  unfold toU32 si
  split <;> omega

theorem toI32_si {n : Nat} (h : n < 2 ^ 31) : toI32 (si n) = n := by
  unfold toI32 si
  rw [if_pos h]
  split <;> omega

theorem toU64_nat {n : Nat} (h : n < 2 ^ 63) : toU64 (n : Int) = n := by
  unfold toU64
  omega

theorem infos_shown (s : SetRec) : infos s = infoShown s.localInfo s.remoteInfo := by
  unfold infos infoShown
  congr 1
  apply List.filter_congr
  intro p _
  rw [Bool.eq_iff_iff]
  simp only [Bool.not_eq_true', List.any_eq_false, beq_iff_eq, decide_eq_true_eq, List.mem_map, not_exists, not_and]

theorem rwx_bits (m : Nat) : rwx m = [permBit m 2 'r', permBit m 1 'w', permBit m 0 'x'] := by
  have key : ∀ i c, (if m &&& 2 ^ i ≠ 0 then c else '-') = permBit m i c := by
    intro i c
    have hb : m &&& 2 ^ i ≠ 0 ↔ m.testBit i = true := by
      constructor
      · intro h
        obtain ⟨j, hj⟩ := Nat.exists_testBit_of_ne_zero h
        rw [Nat.testBit_and, Nat.testBit_two_pow] at hj
        simp only [Bool.and_eq_true, decide_eq_true_eq] at hj
        rw [hj.2]; exact hj.1
      · intro h h0
        have := Nat.testBit_and m (2 ^ i) i
        rw [h0, h, Nat.testBit_two_pow] at this
        simp at this
    unfold permBit
    simp only [hb]
  unfold rwx
  rw [← key 2, ← key 1, ← key 0]

theorem permBit_shift (p k i : Nat) (c : Char) : permBit (p >>> k) i c = permBit p (k + i) c := by
  unfold permBit
  rw [Nat.testBit_shiftRight]

theorem perm_shown (p : Nat) : permStr p = permShown p := by
  simp [permStr, permShown, rwx_bits, permBit_shift]

/-- What is read of the entity printed for a set is what should be shown of it. -/
theorem decode_entry {s : SetRec} (h : Ordinary s) {x : Ent} (hs : Same (entry s) x) :
    decodeSet x = some (shown s) := by
  have hp : (fields s ++ [("info".toList, Ent.list ((infos s).map pairEnt))]).Pairwise
      fun a b => ¬ b.1 <+: a.1 ∧ ¬ a.1 <+: b.1 := by
    have := names_apart
    rw [← names_eq s, List.pairwise_map] at this
    exact this
  have fs : ∀ k v, (k.toList, v) ∈ fields s → ∃ e, find x k = some e ∧ Same v e :=
    fun k v hm => same_found hs hp (List.mem_append_left _ hm)
  have e1 := strOf_same (fs "name" (.str s.name) (by simp [fields]))
  have e2 := strOf_same (fs "schema" (.str s.schema) (by simp [fields]))
  have e3 := digestOf_same (fs "digest" (.str s.digest) (by simp [fields]))
  have e4 := strOf_same (fs "flags" (.str (flagStr s)) (by simp [fields]))
  have e5 := strOf_same (fs "perm" (.str (permStr s.perm)) (by simp [fields]))
  have e6 := intOf_same (fs "meta_size" (.int (si s.metaSz)) (by simp [fields]))
  have e7 := intOf_same (fs "data_size" (.int (si s.dataSz)) (by simp [fields]))
  have e8 := heapOf_same (fs "heap_size" (.int (si s.heapSz)) (by simp [fields]))
  have e9 := intOf_same (fs "uid" (.int (si s.uid)) (by simp [fields]))
  have e10 := intOf_same (fs "gid" (.int (si s.gid)) (by simp [fields]))
  have e11 := intOf_same (fs "card" (.int (si s.card)) (by simp [fields]))
  have e12 := intOf_same (fs "array_card" (.int (si s.arrayCard)) (by simp [fields]))
  have e13 := intOf_same (fs "meta_gn" (.int s.metaGn) (by simp [fields]))
  have e14 := intOf_same (fs "data_gn" (.int s.dataGn) (by simp [fields]))
  obtain ⟨ts, e15, t1⟩ := fs "timestamp" (timeEnt s.sec s.usec) (by simp [fields])
  obtain ⟨du, e16, t2⟩ := fs "duration" (timeEnt s.dsec s.dusec) (by simp [fields])
  obtain ⟨inf, e17, t3⟩ := same_found hs hp (k := "info") (v := .list ((infos s).map pairEnt))
    (List.mem_append_right _ (by simp))
  have e18 : (listOf (find x "info")).bind decodeInfos = some (infos s) := by
    rw [e17]
    cases t3 with
    | list hl => exact decodeInfos_same hl
  obtain ⟨a1, a2⟩ := time_same t1
  obtain ⟨b1, b2⟩ := time_same t2
  unfold decodeSet
  simp only [e1, e2, e3, e4, e5, e6, e7, e8, e9, e10, e11, e12, e13, e14, e15, e16, e18, a1, a2, b1, b2]
  rw [toU64_si h.metaSz, toU64_si h.dataSz, toU64_si h.heapSz, toU32_si h.uid, toU32_si h.gid, toI32_si h.card,
    toI32_si h.arrayCard, toU64_nat h.metaGn, toU64_nat h.dataGn, toU32_si h.sec, toU32_si h.usec,
    toU32_si h.dsec, toU32_si h.dusec, infos_shown, perm_shown]
  rfl

end Verif.Dir
