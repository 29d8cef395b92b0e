import Verif.Dump.Spec
import Verif.CfgFile.Proofs
import Verif.CfgArgs.Props
import Verif.Av.Props
import Verif.SetOwner.Proofs
import Verif.MemSize.Props
import Verif.Strgp.Flush

/-!
# Proofs: the text of the file and its lines
-/

namespace Verif.Dump

open Verif.SetOwner (Str dec numeral)
open Verif.NameTab (codes attrStr2Id)

/-- a word of a line -/
structure Wd (v : Str) : Prop where
  ne : v ≠ []
  bytes : ∀ b ∈ v, 32 < b ∧ b < 256
  first : v.head? ≠ some 35
  last : v.getLast? ≠ some 92

/-! ## bytes and characters -/

theorem char_back : ∀ b, b < 256 → (Char.ofNat b).toNat = b := by decide +kernel

theorem char_space : ∀ b, b < 256 → 32 < b → CfgFile.isSpace (Char.ofNat b) = false := by decide +kernel

theorem char_eq (b : Nat) (h : b < 256) (c : Char) : Char.ofNat b = c ↔ b = c.toNat := by
  constructor
  · intro e; rw [← e, char_back b h]
  · rintro rfl; simp

theorem ofC_toC : ∀ (v : Str), (∀ b ∈ v, b < 256) → ofC (toC v) = v
  | [], _ => rfl
  | b :: v, h => by
    have ih := ofC_toC v fun x hx => h x (by simp [hx])
    unfold ofC toC at *
    simp only [List.map_cons, char_back b (h b (by simp)), ih]

theorem toC_append (a b : Str) : toC (a ++ b) = toC a ++ toC b := by simp [toC]

/-! ## a line -/

theorem line_cons (v : Str) (ws : List Str) : line (v :: ws) = v ++ ws.flatMap (32 :: ·) := by
  induction ws generalizing v with
  | nil => simp [line]
  | cons x ws ih => rw [line, ih x]; simp

theorem line_join : ∀ ws, line ws = CfgArgs.joinWords ws
  | [] => rfl
  | [w] => rfl
  | w :: v :: ws => by rw [line, CfgArgs.joinWords, line_join (v :: ws)]

theorem Wd.delim {v : Str} (h : Wd v) : ∀ b ∈ v, CfgArgs.isDelim b = false := by
  intro b hb
  have := (h.bytes b hb).1
  simp [CfgArgs.isDelim]; omega

theorem words_line (ws : List Str) (h : ∀ x ∈ ws, Wd x) : CfgArgs.words (line ws) = ws := by
  rw [line_join]
  exact CfgArgs.words_join ws fun x hx => ⟨(h x hx).ne, (h x hx).delim⟩

theorem take_word : ∀ (v r : Str), (∀ b ∈ v, 32 < b) → (∀ c s, r = c :: s → c = 32) →
    (v ++ r).takeWhile (· ≠ 32) = v ∧ (v ++ r).dropWhile (· ≠ 32) = r
  | [], [], _, _ => ⟨rfl, rfl⟩
  | [], c :: r, _, h => by simp [h c r rfl]
  | b :: v, r, hv, h => by
    have hb : b ≠ 32 := by have := hv b (by simp); omega
    obtain ⟨h1, h2⟩ := take_word v r (fun x hx => hv x (by simp [hx])) h
    simp [hb] at *
    exact ⟨h1, h2⟩

theorem cut_line (v : Str) (ws : List Str) (hv : ∀ b ∈ v, 32 < b) (h : ∀ x ∈ ws, Wd x) : cut (line (v :: ws)) = (v, ws) := by
  have hr : ∀ c s, ws.flatMap (32 :: ·) = c :: s → c = 32 := by
    intro c s e
    cases ws with
    | nil => simp at e
    | cons x ws => simp at e; exact e.1.symm
  obtain ⟨h1, h2⟩ := take_word v (ws.flatMap (32 :: ·)) hv hr
  unfold cut
  rw [line_cons, h1, h2]
  congr 1
  cases ws with
  | nil => rfl
  | cons x ws =>
    have e : (x :: ws).flatMap (32 :: ·) = 32 :: line (x :: ws) := by rw [line_cons]; simp
    rw [e]
    exact words_line (x :: ws) h

/-! ## a line in a file -/

theorem no_hash : ∀ (l : List Char) (b : Bool), (∀ c ∈ l, CfgFile.isSpace c = false) → (b = true → l.head? ≠ some '#') →
    CfgFile.hasComment b l = false
  | [], _, _, _ => rfl
  | c :: l, b, h, hb => by
    have hc := h c (by simp)
    have ih := no_hash l false (fun x hx => h x (by simp [hx])) (fun e => nomatch e)
    simp only [CfgFile.hasComment, hc, ih, Bool.or_false, Bool.and_eq_false_iff, beq_eq_false_iff_ne]
    cases b with
    | false => exact .inr rfl
    | true =>
      left
      have := hb rfl
      simpa using this

theorem lead_word : ∀ (l : List Char) (b : Bool), (∀ c ∈ l, CfgFile.isSpace c = false) → l ≠ [] → CfgFile.lead b l = false
  | [c], b, h, _ => by simp [CfgFile.lead, h c (by simp)]
  | c :: x :: l, b, h, _ => by
    rw [CfgFile.lead]
    exact lead_word (x :: l) _ (fun y hy => h y (by simp [hy])) (by simp)

theorem Wd.chars {v : Str} (h : Wd v) : ∀ c ∈ toC v, CfgFile.isSpace c = false := by
  intro c hc
  simp only [toC, List.mem_map] at hc
  obtain ⟨b, hb, rfl⟩ := hc
  exact char_space b (h.bytes b hb).2 (h.bytes b hb).1

theorem Wd.noComment {v : Str} (h : Wd v) : CfgFile.hasComment true (toC v) = false := by
  refine no_hash _ true h.chars fun _ e => ?_
  cases v with
  | nil => exact h.ne rfl
  | cons b v =>
    simp only [toC, List.map_cons, List.head?_cons, Option.some.injEq] at e
    rw [char_eq b (h.bytes b (by simp)).2] at e
    exact h.first (by simp [e])

theorem line_plain : ∀ (ws : List Str), ws ≠ [] → (∀ x ∈ ws, Wd x) → CfgFile.hasComment true (toC (line ws)) = false
  | [w], _, h => (h w (by simp)).noComment
  | w :: v :: ws, _, h => by
    have hw := h w (by simp)
    have ih := line_plain (v :: ws) (by simp) fun x hx => h x (by simp [hx])
    have e : toC (line (w :: v :: ws)) = toC w ++ ' ' :: toC (line (v :: ws)) := by
      rw [line, toC_append]; rfl
    have hne : toC w ≠ [] := by
      have := hw.ne
      simpa [toC] using this
    rw [e, CfgFile.hasComment_append, hw.noComment, lead_word _ true hw.chars hne]
    simp only [CfgFile.hasComment, show CfgFile.isSpace ' ' = true from rfl, ih]
    rfl

theorem line_bytes : ∀ (ws : List Str), (∀ x ∈ ws, Wd x) → ∀ b ∈ line ws, 32 ≤ b ∧ b < 256
  | [], _, b, hb => nomatch hb
  | [w], h, b, hb => by have := (h w (by simp)).bytes b hb; omega
  | w :: v :: ws, h, b, hb => by
    rw [line] at hb
    rcases List.mem_append.1 hb with hb | hb
    · have := (h w (by simp)).bytes b hb; omega
    · rcases List.mem_cons.1 hb with rfl | hb
      · omega
      · exact line_bytes (v :: ws) (fun x hx => h x (by simp [hx])) b hb

theorem line_last : ∀ (ws : List Str), ws ≠ [] → (∀ x ∈ ws, Wd x) → ∃ b, (line ws).getLast? = some b ∧ 32 < b ∧ b < 256 ∧ b ≠ 92
  | [w], _, h => by
    have hw := h w (by simp)
    cases e : w.getLast? with
    | none => exact absurd (List.getLast?_eq_none_iff.1 e) hw.ne
    | some b =>
      have hb := hw.bytes b (List.mem_of_getLast? e)
      exact ⟨b, e, hb.1, hb.2, fun h => hw.last (by rw [e, h])⟩
  | w :: v :: ws, _, h => by
    obtain ⟨b, h1, h2⟩ := line_last (v :: ws) (by simp) fun x hx => h x (by simp [hx])
    refine ⟨b, ?_, h2⟩
    rw [line, List.getLast?_append, List.getLast?_cons, h1]
    rfl

theorem line_first (v : Str) (ws : List Str) (hv : v ≠ []) : (line (v :: ws)).head? = v.head? := by
  rw [line_cons]
  cases v with
  | nil => exact absurd rfl hv
  | cons b v => rfl

/-- a line of words -/
def Ln (l : Str) : Prop := ∃ v ws, l = line (v :: ws) ∧ ∀ x ∈ v :: ws, Wd x

theorem getLast_toC (v : Str) : (toC v).getLast? = v.getLast?.map Char.ofNat := by
  unfold toC; simp

theorem Ln.text {l : Str} (h : Ln l) : CfgFile.Text (toC l) ∧ (toC l).getLast? ≠ some '\\' := by
  obtain ⟨v, ws, rfl, h⟩ := h
  obtain ⟨b, hb, h1, h2, h3⟩ := line_last (v :: ws) (by simp) h
  have hv := h v (by simp)
  refine ⟨⟨?_, ?_, ?_, line_plain _ (by simp) h⟩, ?_⟩
  · intro c hc
    simp only [toC, List.mem_map] at hc
    obtain ⟨b, hb, rfl⟩ := hc
    have := line_bytes _ h b hb
    constructor
    · intro e
      rw [char_eq b this.2] at e
      have : b = 10 := e
      omega
    · intro e
      rw [char_eq b this.2] at e
      have : b = 0 := e
      omega
  · have := line_first v ws hv.ne
    cases hh : v with
    | nil => exact absurd hh hv.ne
    | cons c v' =>
      have hc := hv.bytes c (by simp [hh])
      refine ⟨Char.ofNat c, ?_, char_space c hc.2 hc.1⟩
      rw [hh] at this
      unfold toC
      rw [List.head?_map, this]
      rfl
  · refine ⟨Char.ofNat b, ?_, char_space b h2 h1⟩
    rw [getLast_toC, hb]; rfl
  · rw [getLast_toC, hb]
    intro e
    simp only [Option.map_some, Option.some.injEq] at e
    rw [char_eq b h2] at e
    exact h3 e

theorem Ln.back {l : Str} (h : Ln l) : ofC (toC l) = l := by
  obtain ⟨v, ws, rfl, h⟩ := h
  exact ofC_toC _ fun b hb => (line_bytes _ h b hb).2

theorem scan_file (w : World) : ∀ (ls : List Str) (d : Daemon) (no : Nat), (∀ l ∈ ls, Ln l ∧ l.length < 8191) →
    evLines w d (CfgFile.scanLines { line := [], sz := 8192 } no (CfgFile.lines (ls.flatMap fun l => toC l ++ ['\n']))) = runLines w d ls
  | [], d, no, _ => rfl
  | l :: ls, d, no, h => by
    obtain ⟨hl, hlen⟩ := h l (by simp)
    obtain ⟨ht, hb⟩ := hl.text
    have hk := CfgFile.scan_cmd (N := 8192) (cs := []) (pre := []) (gap := []) (com := none) (text := toC l)
      (by
        refine ⟨(fun _ h => nomatch h), (fun _ h => nomatch h), ht, hb, (fun _ h => nomatch h), ?_⟩
        intro t ht; cases ht)
      (by simp [CfgFile.Item.show, CfgFile.tail, toC]; omega) no (ls.flatMap fun l => toC l ++ ['\n'])
    have e : (l :: ls).flatMap (fun l => toC l ++ ['\n']) =
        (CfgFile.Item.cmd [] [] (toC l) [] none).show ++ ls.flatMap fun l => toC l ++ ['\n'] := by
      simp [CfgFile.Item.show, CfgFile.tail]
    rw [e, hk]
    have e2 : CfgFile.cmdText [] (toC l) [] none = toC l := by simp [CfgFile.cmdText, CfgFile.contText]
    rw [e2]
    simp only [evLines, runLines, hl.back]
    cases exec w d l with
    | error e => rfl
    | ok d' => exact scan_file w ls d' _ fun x hx => h x (by simp [hx])

theorem scan_comment (t r : List Char) (no : Nat) (ht : ∀ c ∈ t, c ≠ '\n') (hl : t.length < 8100) :
    CfgFile.scanLines { line := [], sz := 8192 } no (CfgFile.lines ('#' :: t ++ '\n' :: r)) =
      CfgFile.scanLines { line := [], sz := 8192 } (no + 1) (CfgFile.lines r) := by
  have h1 := CfgFile.lines_cons (l := '#' :: t) r (by
    intro c hc
    rcases List.mem_cons.1 hc with rfl | hc
    · decide
    · exact ht c hc)
  rw [h1]
  obtain ⟨u, hu, hul⟩ := CfgFile.physical_comment (s := []) (t := t) (fun _ h => nomatch h)
  have hf := CfgFile.feed_comment (b := { line := [], sz := 8192 }) rfl (l := '#' :: t ++ ['\n']) hu (by simp only; omega)
  simp only [CfgFile.scanLines, hf, if_true]

theorem scan_blank_line (r : List Char) (no : Nat) :
    CfgFile.scanLines { line := [], sz := 8192 } no (CfgFile.lines ('\n' :: r)) =
      CfgFile.scanLines { line := [], sz := 8192 } (no + 1) (CfgFile.lines r) := by
  have h1 := CfgFile.lines_cons (l := []) r (fun _ h => nomatch h)
  rw [List.nil_append] at h1
  rw [h1]
  have hf := CfgFile.feed_empty { line := [], sz := 8192 } (CfgFile.physical_blank (s := []) (fun _ h => nomatch h))
  simp only [CfgFile.scanLines, hf, if_true]

theorem reload_lines (w : World) (path : Str) (d : Daemon) (hp : ∀ b ∈ path, b ≠ 10 ∧ b < 256) (hl : path.length < 8000)
    (h : ∀ l ∈ dumpLines d, Ln l ∧ l.length < 8191) : reload w (dumpFile path d) = runLines w fresh (dumpLines d) := by
  have e : dumpFile path d = '#' :: " This configuration file assumes ldmsd will be started with".toList ++ '\n' ::
      ('#' :: " no command line arguments.".toList ++ '\n' :: ('#' :: (" e.g. ldmsd -c ".toList ++ toC path) ++ '\n' ::
        ('\n' :: (dumpLines d).flatMap fun l => toC l ++ ['\n']))) := by
    have e1 : "# This configuration file assumes ldmsd will be started with\n".toList =
      '#' :: " This configuration file assumes ldmsd will be started with".toList ++ ['\n'] := by decide +kernel
    have e2 : "# no command line arguments.\n".toList = '#' :: " no command line arguments.".toList ++ ['\n'] := by decide +kernel
    have e3 : "# e.g. ldmsd -c ".toList = '#' :: " e.g. ldmsd -c ".toList := by decide +kernel
    have e4 : "\n\n".toList = ['\n', '\n'] := by decide +kernel
    unfold dumpFile header
    rw [e1, e2, e3, e4]
    simp only [List.append_assoc, List.cons_append, List.nil_append]
  unfold reload CfgFile.scan
  rw [e, scan_comment _ _ _ (by decide +kernel) (by decide +kernel), scan_comment _ _ _ (by decide +kernel) (by decide +kernel),
    scan_comment, scan_blank_line]
  · exact scan_file w _ _ _ h
  · intro c hc
    rcases List.mem_append.1 hc with hc | hc
    · have : ∀ c ∈ " e.g. ldmsd -c ".toList, c ≠ '\n' := by decide +kernel
      exact this c hc
    · simp only [toC, List.mem_map] at hc
      obtain ⟨b, hb, rfl⟩ := hc
      intro e
      rw [char_eq b (hp b hb).2] at e
      exact (hp b hb).1 e
  · have : " e.g. ldmsd -c ".toList.length = 15 := by decide +kernel
    rw [List.length_append, this]
    simp [toC]; omega

/-! ## the values of attributes -/

theorem no_match : ∀ (v : Str), (∀ b ∈ v, b < 256) → (∀ a b, v ≠ a ++ 36 :: 123 :: b) → Av.findMatch (toC v) = none
  | [], _, _ => rfl
  | c :: v, hb, h => by
    have ih := no_match v (fun b hb' => hb b (by simp [hb'])) fun a b e => h (c :: a) b (by rw [e]; rfl)
    have hr : Av.refAt (toC (c :: v)) = none := by
      cases v with
      | nil => simp only [toC, List.map_cons, List.map_nil]; unfold Av.refAt; split <;> simp_all
      | cons x v =>
        simp only [toC, List.map_cons]
        unfold Av.refAt
        split
        · rename_i t he
          simp only [List.cons.injEq] at he
          have h1 := (char_eq c (hb c (by simp)) '$').1 he.1
          have h2 := (char_eq x (hb x (by simp)) '{').1 he.2.1
          exact absurd rfl (by
            have := h [] v
            rw [h1, h2] at this
            exact this)
        · rfl
    have e : toC (c :: v) = Char.ofNat c :: toC v := rfl
    rw [e, Av.findMatch]
    rw [e] at hr
    simp only [hr, ih, Option.map_none]

theorem expand_self (w : World) (v : Str) (hb : ∀ b ∈ v, b < 256) (h : ∀ a b, v ≠ a ++ 36 :: 123 :: b) :
    (Av.strReplEnvVars w.vars (toC v)).map ofC = some v := by
  rw [Av.env_expand_partial w.vars (Av.expand_nofind (no_match v hb h)) (by omega)]
  simp [ofC_toC v hb]

theorem splitEq_av (n v : Str) (h : 61 ∉ n) : CfgArgs.splitEq (n ++ 61 :: v) = (n, some v) := by
  induction n with
  | nil => simp [CfgArgs.splitEq]
  | cons c n ih =>
    have hc : c ≠ 61 := fun e => h (by simp [e])
    have := ih fun hh => h (by simp [hh])
    simp [CfgArgs.splitEq, hc, this]

theorem splitEq_kw (n : Str) (h : 61 ∉ n) : CfgArgs.splitEq n = (n, none) := by
  induction n with
  | nil => simp [CfgArgs.splitEq]
  | cons c n ih =>
    have hc : c ≠ 61 := fun e => h (by simp [e])
    have := ih fun hh => h (by simp [hh])
    simp [CfgArgs.splitEq, hc, this]

/-! ## words -/

/-- a name that is a word, for all names of the file -/
theorem av_wd (n : String) (v : Str) (hn : codes n ≠ [] ∧ (∀ b ∈ codes n, 32 < b ∧ b < 256) ∧ (codes n).head? ≠ some 35) (hv : Word v) :
    Wd (av n v) := by
  unfold av
  refine ⟨by simp, ?_, ?_, ?_⟩
  · intro b hb
    rcases List.mem_append.1 hb with hb | hb
    · exact hn.2.1 b hb
    · rcases List.mem_cons.1 hb with rfl | hb
      · omega
      · exact hv.bytes b hb
  · cases h : codes n with
    | nil => exact absurd h hn.1
    | cons c s =>
      have := hn.2.2
      rw [h] at this
      simpa using this
  · rw [List.getLast?_append, List.getLast?_cons]
    cases e : v.getLast? with
    | none => exact absurd (List.getLast?_eq_none_iff.1 e) hv.ne
    | some b =>
      have := hv.noCont
      rw [e] at this
      simpa using this

theorem Word.anchored {v : Str} (h : Word v) : Word (anchored v) := by
  unfold Dump.anchored
  refine ⟨by simp, ?_, ?_, ?_⟩
  · intro b hb
    simp only [List.cons_append, List.mem_cons, List.mem_append, List.not_mem_nil, or_false] at hb
    rcases hb with rfl | hb | rfl
    · omega
    · exact h.bytes b hb
    · omega
  · intro a b e
    cases a with
    | nil => simp at e
    | cons c a =>
      simp only [List.cons_append, List.cons.injEq] at e
      have e2 := e.2
      have hlast := congrArg List.getLast? e2
      have hd := congrArg List.dropLast e2
      cases b with
      | nil =>
        rw [show a ++ [36, 123] = (a ++ [36]) ++ [123] by simp] at hlast
        simp at hlast
      | cons x b =>
        rw [List.dropLast_concat, List.dropLast_append_of_ne_nil (by simp)] at hd
        exact h.noVar a (x :: b).dropLast (by simpa using hd)
  · rw [List.getLast?_append]; simp

theorem dec_word (n : Nat) : Word (dec n) := by
  have h := Strgp.numeral_all n
  rw [List.all_eq_true] at h
  have hd : ∀ b ∈ dec n, 48 ≤ b ∧ b ≤ 57 := by
    intro b hb
    have := h b hb
    simpa [SetOwner.isDigit] using this
  refine ⟨?_, ?_, ?_, ?_⟩
  · unfold dec numeral; split <;> simp
  · intro b hb; have := hd b hb; omega
  · intro a b e
    have := hd 36 (by rw [e]; simp)
    omega
  · intro e
    have := hd 92 (List.mem_of_getLast? e)
    omega

theorem ld_word (i : Int) : Word (ld i) := by
  unfold ld
  split
  · have h := dec_word i.natAbs
    refine ⟨by simp, ?_, ?_, ?_⟩
    · intro b hb
      rcases List.mem_cons.1 hb with rfl | hb
      · omega
      · exact h.bytes b hb
    · intro a b e
      cases a with
      | nil => simp at e
      | cons c a =>
        simp only [List.cons_append, List.cons.injEq] at e
        exact h.noVar a b e.2
    · rw [List.getLast?_cons]
      have := h.noCont
      cases e : (dec i.natAbs).getLast? with
      | none => simp
      | some b => rw [e] at this; simpa using this
  · exact dec_word _

theorem ld_nat (n : Nat) : ld (n : Int) = dec n := by
  unfold ld
  rw [if_neg (by omega)]
  rfl

end Verif.Dump
