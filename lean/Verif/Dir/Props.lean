import Verif.Dir.Loop

/-!
# C63: what a peer is shown of the directory

What should be shown of a set is in `Verif/Dir/Spec.lean`.
-/

namespace Verif.Dir

open Verif.JsonText (text lex lex_tok)
open Verif.RowJson (Plain)

/-- A set with both kinds of information; its owner has a large number. -/
def sample : SetRec where
  name := "n1/meminfo".toList
  schema := "meminfo".toList
  digest := "0A".toList
  closed := true
  origin := .localSet
  push := false
  metaSz := 1000
  dataSz := 400
  heapSz := 0
  uid := 4294967294
  gid := 0
  perm := 0o640
  card := 7
  arrayCard := 1
  metaGn := 1
  dataGn := 12345678901
  sec := 1700000000
  usec := 999999
  dsec := 0
  dusec := 15
  localInfo := [("k".toList, "mine".toList)]
  remoteInfo := [("k".toList, "theirs".toList), ("interval".toList, "1000000:0".toList)]

theorem pairs_dec {l : List (Text × Text)} (h : (l.all fun p => plainB p.1 && plainB p.2) = true) :
    ∀ p ∈ l, Plain p.1 ∧ Plain p.2 := by
  intro p hp
  have := List.all_eq_true.mp h p hp
  rw [Bool.and_eq_true] at this
  exact ⟨plain_dec this.1, plain_dec this.2⟩

theorem sample_ordinary : Ordinary sample where
  name := plain_dec (by decide)
  schema := plain_dec (by decide)
  digest := plain_dec (by decide)
  linfo := pairs_dec (by decide +kernel)
  rinfo := pairs_dec (by decide +kernel)
  metaSz := by decide
  dataSz := by decide
  heapSz := by decide
  card := by decide
  arrayCard := by decide
  metaGn := by decide
  dataGn := by decide
  uid := by decide
  gid := by decide
  sec := by decide
  usec := by decide
  dsec := by decide
  dusec := by decide

example : (shown sample).perm = "-rw-r-----".toList ∧ (shown sample).flags = "CL ".toList ∧
    (shown sample).uid = 4294967294 ∧
    (shown sample).info = [("k".toList, "mine".toList), ("interval".toList, "1000000:0".toList)] := by decide +kernel

theorem sample_width : width sample = 362 := by decide +kernel

variable {acc : SetRec → Bool} {L : Nat}

/-! ## The reply to a request -/

/-- A directory whose readable sets fit in one message is sent in one, and the peer is told of each readable set
once, in order, all that should be shown of it, and that there is no more.  `L` is the room in a message. -/
theorem dir_one_message {names : List SetRec} {n : Nat} (hL : 20 < L)
    (ho : ∀ s ∈ names, acc s = true → Ordinary s)
    (hw : 17 + ((names.filter acc).map width).sum + 2 < L - 3) (hn : names.length ≤ n) :
    ∃ m, dirRequest acc L n (names.map some) = ([m], true) ∧
      processReply m = some (.listing false ((names.filter acc).map shown)) := by
  unfold dirRequest
  by_cases h : names = []
  · subst h
    refine ⟨⟨0, false, header ++ closing⟩, by simp, ?_⟩
    have := reply_closed (b := false) (more := false) (l := []) (fun _ h => (by cases h))
    simpa [body] using this
  · rw [if_neg (by simpa using h)]
    obtain ⟨t, h1, h2⟩ := loop_one (acc := acc) hL names [] [] n h (.inl ⟨rfl, rfl⟩) (fun _ h => (by cases h)) ho
      (by show header.length + _ + 2 < _; rw [header_len]; exact hw) hn
    exact ⟨_, h1, h2⟩

/-- Three sets of which one may not be read, in messages of 1000 characters. -/
example : let names := [{ sample with uid := 5 }, { sample with uid := 6 }, { sample with uid := 7 }]
    let acc := fun s : SetRec => s.uid != 6
    (∀ s ∈ names, acc s = true → Ordinary s) ∧ 17 + ((names.filter acc).map width).sum + 2 < 1000 - 3 ∧
      (names.filter acc).length = 2 := by
  refine ⟨?_, by decide +kernel, by decide +kernel⟩
  intro s hs _
  have o := sample_ordinary
  simp only [List.mem_cons, List.not_mem_nil, or_false] at hs
  rcases hs with rfl | rfl | rfl <;>
    exact ⟨o.name, o.schema, o.digest, o.linfo, o.rinfo, o.metaSz, o.dataSz, o.heapSz, o.card, o.arrayCard,
      o.metaGn, o.dataGn, by decide, o.gid, o.sec, o.usec, o.dsec, o.dusec⟩

/-- A directory of any length is sent in parts, each but the last saying that more will come, and the peer is
told of each readable set once, in order, unless the reply ends with an error.  Missing for the full claim:
a readable set that does not fit in a message with the header (`dir_hang_defect`), a name whose set is gone
(`dir_lost_defect`), texts that need escapes (`dir_quote_defect`), and that there is no error
(`dir_enomem_defect`). -/
theorem dir_complete_partial {names : List SetRec} {n : Nat} (hL : 20 < L)
    (ho : ∀ s ∈ names, acc s = true → Ordinary s) (hw : ∀ s ∈ names, acc s = true → 17 + width s < L - 3)
    (hn : 2 * names.length ≤ n) :
    (dirRequest acc L n (names.map some)).2 = true ∧
      (Whole ((dirRequest acc L n (names.map some)).1.map processReply) ((names.filter acc).map shown) ∨
        Failed (dirRequest acc L n (names.map some)).1) := by
  unfold dirRequest
  by_cases h : names = []
  · subst h
    refine ⟨by simp, .inl ?_⟩
    have := reply_closed (b := false) (more := false) (l := []) (fun _ h => (by cases h))
    simp only [body, List.append_nil] at this
    simp only [List.map_nil, if_true, List.map_cons, this, List.filter_nil]
    exact .last _
  · rw [if_neg (by simpa using h)]
    exact loop_complete (acc := acc) hL names [] [] n h (.inl ⟨rfl, rfl⟩) (.inl rfl) (fun _ h => (by cases h))
      (fun s hs ha => ⟨ho s hs ha, hw s hs ha⟩) hn

/-- The sample and two copies, in messages of 500 characters: three messages. -/
example : 17 + width sample < 500 - 3 ∧
    ((dirRequest (fun _ => true) 500 6 ([sample, sample, sample].map some)).1.map (·.more)) = [true, true, false] := by
  constructor <;> decide +kernel

/-- Whatever happens to the sets, whatever their size and however far the loop has come, a peer is told only of
sets that are there and that it may read, each as it should be shown, in order and at most once. -/
theorem dir_sound {names : List (Option SetRec)} {n : Nat} (hL : 20 < L)
    (ho : ∀ s ∈ readable acc names, Ordinary s) :
    ∃ l : List SetRec, l.Sublist (readable acc names) ∧
      (dirRequest acc L n names).1.flatMap toldBy = l.map shown := by
  unfold dirRequest
  split
  · refine ⟨[], by simp, ?_⟩
    have := reply_closed (b := false) (more := false) (l := []) (fun _ h => (by cases h))
    simp only [body, List.append_nil] at this
    simp [toldBy, this]
  · have := loop_sound (acc := acc) hL n names [] [] (.inl ⟨rfl, rfl⟩) (.inl rfl) (fun _ h => (by cases h)) ho
    simpa using this

example : ∀ s ∈ readable (fun _ => true) [none, some sample, none], Ordinary s := by
  intro s hs
  simp only [readable, List.filterMap_cons, List.filterMap_nil, id, List.filter_cons, List.filter_nil, if_true,
    List.mem_singleton] at hs
  subst hs
  exact sample_ordinary

/-- A readable set that does not fit in a message with the header keeps the peer from ever being told the end:
the loop goes on for ever, and sends messages without end. -/
theorem dir_hang_defect {names : List (Option SetRec)} {s : SetRec} (hL : 20 < L) (hs : some s ∈ names)
    (ha : acc s = true) (hw : L - 3 ≤ 17 + width s) :
    (∀ n, (dirRequest acc L n names).2 = false ∧ ∀ m ∈ (dirRequest acc L n names).1, m.more = true) ∧
      ∀ k, ∃ n, k ≤ (dirRequest acc L n names).1.length := by
  have hne : names ≠ [] := by rintro rfl; cases hs
  have key := fun n => loop_hang (acc := acc) hL ha hw n names [] hs (.inl rfl)
  unfold dirRequest
  simp only [if_neg hne]
  refine ⟨fun n => ⟨(key n).1, (key n).2.2⟩, fun k => ⟨k + names.length, ?_⟩⟩
  have := (key (k + names.length)).2.1
  omega

/-- The information of a set is enough for that. -/
example : 1024 - 3 ≤ 17 + width { sample with localInfo := [("k".toList, List.replicate 1024 'x')] } := by
  decide +kernel

/-- If the set of the last name is gone, the peer is never told that there is no more. -/
theorem dir_lost_defect {names : List (Option SetRec)} {n : Nat} (hL : 20 < L) (hl : names.getLast? = some none) :
    ∀ m ∈ (dirRequest acc L n names).1, m.more = true := by
  unfold dirRequest
  rw [if_neg (by rintro rfl; simp at hl)]
  exact loop_lost (acc := acc) hL n names [] hl

example : (dirRequest (fun _ => true) 500 6 [some sample, none]).1 = [] := by decide +kernel

/-- There are two lengths of a message for which a directory that fits in it is refused for want of memory. -/
theorem dir_enomem_defect {s : SetRec} {n : Nat} (ha : acc s = true) (hw : 0 < width s)
    (hl : L = 17 + width s + 4 ∨ L = 17 + width s + 5) :
    dirRequest acc L (n + 1) [some s] = ([⟨ENOMEM, false, []⟩], true) ∧ 17 + width s + 2 < L := by
  refine ⟨?_, by omega⟩
  have hst : (start []).length = 17 := rfl
  obtain ⟨_, hlen⟩ := next_fits (L := L) (.inl ⟨rfl, rfl⟩) ha (by rw [hst]; omega)
  unfold dirRequest
  rw [if_neg (by simp), loop_some (by omega), if_neg (by rw [hlen, hst]; omega), if_pos rfl, if_pos]
  rw [List.length_append, hlen, hst]
  simp only [closing, List.length_cons, List.length_nil]
  omega

example : 0 < width sample := by rw [sample_width]; decide

def quoted : SetRec := { sample with localInfo := [("k".toList, "\"".toList)] }

/-- A quote in the information of one set: the peer is told of none of the sets. -/
theorem dir_quote_defect : ∃ m, dirRequest (fun _ => true) 2000 5 ([sample, quoted, sample].map some) = ([m], true) ∧
    processReply m = some (.error 0) := by
  refine ⟨⟨0, false, header ++ body false [sample, quoted, sample] ++ closing⟩, by decide +kernel, ?_⟩
  have : JsonText.parse (header ++ body false [sample, quoted, sample] ++ closing) = none := by
    have : (JsonText.parse (header ++ body false [sample, quoted, sample] ++ closing)).isNone = true := by
      decide +kernel
    simpa using this
  unfold processReply
  simp only [ne_eq, not_true_eq_false, if_false, this]

/-- A set that may not be read as the first of a message: the text is not JSON. -/
theorem dir_comma_defect : ∃ m, dirRequest (fun s => s.uid != 0) 1000 2 ([{ sample with uid := 0 }, sample].map some) =
    ([m], true) ∧ RowJson.readJson m.text = none :=
  ⟨⟨0, false, header ++ body true [sample] ++ closing⟩, by decide +kernel, JsonText.reads_none (by decide +kernel)⟩

/-- A size of 2 GB or more is shown as another. -/
theorem dir_size_defect : ∃ m d, dirRequest (fun _ => true) 1000 1 [some { sample with dataSz := 2 ^ 31 }] =
    ([m], true) ∧ toldBy m = [d] ∧ d.dataSize = 2 ^ 64 - 2 ^ 31 :=
  ⟨⟨0, false, header ++ body false [{ sample with dataSz := 2 ^ 31 }] ++ closing⟩,
    { shown sample with dataSize := 2 ^ 64 - 2 ^ 31 }, by decide +kernel, by decide +kernel, rfl⟩

/-! ## Updates -/

theorem lex_closing : lex (' ' :: closing) = .rb :: .rc :: lex [] := rfl

attribute [local irreducible] header closing JsonText.parse lex

theorem format_for {s : SetRec} : ∀ (n k : Nat), width s < 4096 * (k + n) →
    formatFor s (n + 1) (4096 * k) = ' ' :: text id (entry s) := by
  intro n
  induction n with
  | zero =>
    intro k hk
    rw [formatFor, fmt_fits (by omega), if_neg]
    · rfl
    · rw [List.length_cons, ← width_eq]; omega
  | succ n ih =>
    intro k hk
    rw [formatFor]
    by_cases h : width s < 4096 * k
    · rw [fmt_fits h, if_neg]
      · rfl
      · rw [List.length_cons, ← width_eq]; omega
    · rw [if_pos (fmt_long (by omega)), show 4096 * k + 4096 = 4096 * (k + 1) by omega]
      exact ih (k + 1) (by omega)

/-- A peer that asked for updates and is connected is told of the set all that should be shown of it, if that
fits in a message. -/
theorem update_shown {p : Peer} {s : SetRec} {n : Nat} (ho : Ordinary s) (hc : p.connected = true)
    (hr : p.notify = true) (hf : hdrLen + 21 + width s + 1 < p.msgMax) (hn : width s < 4096 * (n + 1)) :
    ∃ m, dirUpdate [p] (n + 1) s = [some m] ∧ processReply m = some (.listing false [shown s]) := by
  have hfm := format_for (s := s) n 1 (by omega)
  unfold dirUpdate sendUpdate
  simp only [List.map_cons, List.map_nil, hr, if_true, hc, Bool.not_true, Bool.false_eq_true, if_false]
  rw [hfm, if_neg (by rw [List.length_cons, ← width_eq]; omega)]
  refine ⟨_, rfl, ?_⟩
  have := reply_read (b := false) (more := false) (l := [s]) (T := ' ' :: closing) (r := [])
    (by intro x hx; rw [List.mem_singleton] at hx; subst hx; exact ho) (.inr (.inr (.inr rfl))) lex_closing
  have e : JsonText.parse (header ++ ' ' :: ' ' :: text id (entry s) ++ ' ' :: closing) =
      JsonText.parse (header ++ (body false [s] ++ ' ' :: closing)) := by
    have : lex (header ++ ' ' :: ' ' :: text id (entry s) ++ ' ' :: closing) =
        lex (header ++ (body false [s] ++ ' ' :: closing)) := by
      simp only [List.append_assoc, List.cons_append, lex_header, lex_sp, body, sep, Bool.false_eq_true, if_false,
        List.append_nil]
    rw [JsonText.parse, JsonText.parse, this]
  unfold processReply at this ⊢
  simp only [ne_eq, not_true_eq_false, if_false] at this ⊢
  rw [e]
  exact this

/-- A set that does not fit in a message is not shown to anyone. -/
theorem update_large {p : Peer} {s : SetRec} {n : Nat} (hf : p.msgMax ≤ hdrLen + 21 + width s + 1)
    (hn : width s < 4096 * (n + 1)) : dirUpdate [p] (n + 1) s = [none] := by
  have hfm := format_for (s := s) n 1 (by omega)
  unfold dirUpdate sendUpdate
  simp only [List.map_cons, List.map_nil, Nat.mul_one] at hfm ⊢
  rw [hfm]
  have : hdrLen + (21 + (' ' :: text id (entry s)).length + 1) ≥ p.msgMax := by
    rw [List.length_cons, ← width_eq]; omega
  rw [if_pos this]
  split
  · split <;> rfl
  · rfl

/-- A peer that did not ask, or is not connected, is sent nothing. -/
theorem update_unasked {p : Peer} {s : SetRec} {n : Nat} (h : p.notify = false ∨ p.connected = false) :
    dirUpdate [p] n s = [none] := by
  unfold dirUpdate sendUpdate
  rcases h with h | h <;> simp [h]

/-- An update shows a set to a peer that may not read it. -/
theorem update_access_defect : ∃ (p : Peer) (m : Msg), p.acc sample = false ∧
    dirUpdate [p] 2 sample = [some m] ∧ processReply m = some (.listing false [shown sample]) := by
  obtain ⟨m, h1, h2⟩ := update_shown (p := ⟨true, true, 1000, fun _ => false⟩) (s := sample) (n := 1) sample_ordinary
    rfl rfl (by rw [sample_width]; decide) (by rw [sample_width]; decide)
  exact ⟨_, m, rfl, h1, h2⟩

end Verif.Dir
