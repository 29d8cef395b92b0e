import Verif.JsonText.Parse
import Verif.RowJson.Proofs

/-!
# What is printed, and what it is read as
-/

namespace Verif.JsonText

open Verif.RowJson (JVal Plain Reads joined memText)

variable {fmt : Text → Text}

theorem decNat_eq (n : Nat) : decNat n = RowJson.dec n := by
  induction n using Nat.strongRecOn with
  | ind n ih =>
    rw [decNat, RowJson.dec]
    split
    · rfl
    · rw [ih (n / 10) (by omega)]; rfl

theorem decInt_eq (v : Int) : decInt v = RowJson.decInt v := by
  unfold decInt RowJson.decInt
  rw [decNat_eq]

theorem meaningAll_map (l : List Ent) : meaningAll fmt l = l.map (meaning fmt) := by
  induction l with
  | nil => rfl
  | cons e l ih => rw [meaningAll, ih]; rfl

theorem meaningObj_map (d : List (Text × Ent)) :
    meaningObj fmt d = d.map fun p => (p.1, meaning fmt p.2) := by
  induction d with
  | nil => rfl
  | cons p d ih => obtain ⟨k, e⟩ := p; rw [meaningObj, ih]; rfl

theorem textAll_false (l : List Ent) :
    textAll fmt l false = (l.map fun e => ',' :: text fmt e).flatten ++ [']'] := by
  induction l with
  | nil => rfl
  | cons e l ih => rw [textAll, ih]; simp

theorem textAll_joined (l : List Ent) : textAll fmt l true = joined (l.map (text fmt)) ++ [']'] := by
  cases l with
  | nil => rfl
  | cons e l =>
    rw [textAll, textAll_false]
    simp [joined, List.map_map, Function.comp_def]

theorem textObj_false (d : List (Text × Ent)) :
    textObj fmt d false = (d.map fun p => ',' :: memText p.1 (text fmt p.2)).flatten ++ ['}'] := by
  induction d with
  | nil => rfl
  | cons p d ih => obtain ⟨k, e⟩ := p; rw [textObj, ih]; simp [memText]

theorem textObj_joined (d : List (Text × Ent)) :
    textObj fmt d true = joined (d.map fun p => memText p.1 (text fmt p.2)) ++ ['}'] := by
  cases d with
  | nil => rfl
  | cons p d =>
    obtain ⟨k, e⟩ := p
    rw [textObj, textObj_false]
    simp [joined, memText, List.map_map, Function.comp_def]

theorem plain_bs {s : Text} (h : Plain s) : '\\' ∉ s := fun hm => (h _ hm).2.2 rfl

/-- The characters of a number. -/
def NumChar (c : Char) : Prop := c.isDigit = true ∨ c ∈ ['-', '+', '.', 'e', 'E']

theorem num_chars {t : Text} (h : RowJson.IsNum t) : ∀ c ∈ t, NumChar c := by
  obtain ⟨v, hv⟩ := h
  have key : ∀ (neg : Bool) (s : Text), RowJson.unsigned neg s = some (v, []) → ∀ c ∈ s, NumChar c := by
    intro neg s hu
    obtain ⟨i, fp, f, ep, e, rfl, hsh, _, _⟩ := unsigned_shape hu
    intro x hx
    simp only [List.mem_append, List.append_nil] at hx
    rcases hx with hm | hm | hm
    · exact .inl (hsh.idig _ hm)
    · rcases hsh.frac with ⟨rfl, _⟩ | ⟨rfl, _, hf⟩
      · cases hm
      · rcases List.mem_cons.mp hm with rfl | hm
        · exact .inr (by decide)
        · exact .inl (hf _ hm)
    · rcases hsh.exp with ⟨rfl, _⟩ | ⟨c, sg, d, rfl, hc, hsg, _, hd, _⟩
      · cases hm
      · simp only [List.mem_cons, List.mem_append] at hm
        rcases hm with rfl | hm | hm
        · rcases hc with rfl | rfl <;> exact .inr (by decide)
        · rcases hsg with rfl | rfl | rfl
          · cases hm
          · rw [List.mem_singleton] at hm; subst hm; exact .inr (by decide)
          · rw [List.mem_singleton] at hm; subst hm; exact .inr (by decide)
        · exact .inl (hd _ hm)
  cases t with
  | nil => simp
  | cons c t =>
    by_cases hc : c = '-'
    · subst hc
      have := key true t hv
      intro x hx
      rcases List.mem_cons.mp hx with rfl | hx
      · exact .inr (by decide)
      · exact this x hx
    · rw [RowJson.number_other t hc] at hv
      exact key false _ hv

theorem num_not {t : Text} (h : RowJson.IsNum t) {c : Char} (hc : ¬ NumChar c) : c ∉ t :=
  fun hm => hc (num_chars h c hm)

theorem num_bs {t : Text} (h : RowJson.IsNum t) : '\\' ∉ t := num_not h (by unfold NumChar; decide)

/-- What is needed of an entity's text. -/
structure TextOk (fmt : Text → Text) (e : Ent) : Prop where
  reads : Reads (text fmt e) (meaning fmt e)
  starts : RowJson.Starts (text fmt e)
  bs : '\\' ∉ text fmt e
  fits : Fits (meaning fmt e)

theorem num_starts {t : Text} (h : RowJson.IsNum t) : RowJson.Starts t := by
  obtain ⟨v, hv⟩ := h
  obtain ⟨c, l, rfl, hc⟩ := RowJson.number_head hv
  refine ⟨c, l, rfl, ?_⟩
  rcases hc with rfl | hc
  · decide
  · have := digit_range hc
    refine ⟨by omega, ?_, ?_⟩
    · rintro rfl; exact absurd hc (by decide)
    · rintro rfl; exact absurd hc (by decide)

theorem isNum_int (v : Int) : RowJson.IsNum (decInt v) := by
  refine ⟨.num v 0, ?_⟩
  have := RowJson.number_decInt v (r := []) trivial
  rw [List.append_nil] at this
  rw [decInt_eq]; exact this

theorem joined_bs : ∀ {l : List Text}, (∀ t ∈ l, '\\' ∉ t) → '\\' ∉ joined l := by
  intro l h
  cases l with
  | nil => simp [joined]
  | cons t l =>
    simp only [joined, List.mem_append, List.mem_flatten, List.mem_map, not_or]
    refine ⟨h t (by simp), ?_⟩
    rintro ⟨_, ⟨u, hu, rfl⟩, hm⟩
    rcases List.mem_cons.mp hm with hm | hm
    · exact absurd hm (by decide)
    · exact h u (by simp [hu]) hm

theorem reads_word {w : Text} {v : JVal}
    (hv : ∀ (n : Nat) (r : Text), RowJson.value (n + 1) (w ++ r) = some (v, r)) : Reads w v := by
  intro n r hn _
  obtain ⟨n, rfl⟩ : ∃ k, n = k + 1 := ⟨n - 1, by omega⟩
  exact hv n r

theorem fitsAll_iff {l : List JVal} : FitsAll l ↔ ∀ v ∈ l, Fits v := by
  induction l with
  | nil => simp [FitsAll]
  | cons v l ih => simp [FitsAll, ih]

theorem fitsObj_iff {l : List (Text × JVal)} : FitsObj l ↔ ∀ p ∈ l, Fits p.2 := by
  induction l with
  | nil => simp [FitsObj]
  | cons p l ih => obtain ⟨k, v⟩ := p; simp [FitsObj, ih]

mutual

theorem textOk : (e : Ent) → Sane fmt e → TextOk fmt e
  | .int v, h =>
    ⟨by rw [text, decInt_eq]; exact RowJson.reads_int v, num_starts (isNum_int v), num_bs (isNum_int v),
      fun _ => h⟩
  | .bool true, _ =>
    ⟨reads_word (w := "true".toList) (fun _ _ => rfl), ⟨'t', _, rfl, by decide⟩,
      by simp only [text]; decide, trivial⟩
  | .bool false, _ =>
    ⟨reads_word (w := "false".toList) (fun _ _ => rfl), ⟨'f', _, rfl, by decide⟩,
      by simp only [text]; decide, trivial⟩
  | .flt t, h => ⟨RowJson.reads_flt h.1, num_starts h.1, num_bs h.1, h.2⟩
  | .str s, h =>
    ⟨RowJson.reads_str h, ⟨'"', _, rfl, by decide⟩, by
      have := plain_bs h
      simp only [text, List.mem_cons, List.mem_append, List.cons_append]
      simp [this], trivial⟩
  | .null, _ =>
    ⟨reads_word (w := "null".toList) (fun _ _ => rfl), ⟨'n', _, rfl, by decide⟩,
      by simp only [text]; decide, trivial⟩
  | .list l, h => by
    have hl := textAllOk l h
    refine ⟨?_, ⟨'[', _, rfl, by decide⟩, ?_, ?_⟩
    · have := RowJson.reads_arr (l := l.map fun e => (text fmt e, meaning fmt e))
        (by
          intro p hp
          obtain ⟨e, he, rfl⟩ := List.mem_map.mp hp
          exact (hl e he).reads)
        (by
          intro p hp
          obtain ⟨e, he, rfl⟩ := List.mem_map.mp hp
          exact (hl e he).starts)
      simp only [List.map_map, Function.comp_def] at this
      rw [text, textAll_joined, meaning, meaningAll_map]
      exact this
    · rw [text, textAll_joined]
      have := joined_bs (l := l.map (text fmt)) (by
        intro t ht
        obtain ⟨e, he, rfl⟩ := List.mem_map.mp ht
        exact (hl e he).bs)
      simp [this]
    · rw [meaning, meaningAll_map, Fits, fitsAll_iff]
      intro v hv
      obtain ⟨e, he, rfl⟩ := List.mem_map.mp hv
      exact (hl e he).fits
  | .dict d, h => by
    have hd := textObjOk d h.1
    refine ⟨?_, ⟨'{', _, rfl, by decide⟩, ?_, ?_⟩
    · have := RowJson.reads_obj (l := d.map fun p => ((p.1, text fmt p.2), meaning fmt p.2))
        (by
          intro p hp
          obtain ⟨e, he, rfl⟩ := List.mem_map.mp hp
          exact ⟨(hd e he).1, (hd e he).2.reads⟩)
      simp only [List.map_map, Function.comp_def] at this
      rw [text, textObj_joined, meaning, meaningObj_map]
      exact this
    · rw [text, textObj_joined]
      have := joined_bs (l := d.map fun p => memText p.1 (text fmt p.2)) (by
        intro t ht
        obtain ⟨p, hp, rfl⟩ := List.mem_map.mp ht
        have h1 := plain_bs (hd p hp).1
        have h2 := (hd p hp).2.bs
        simp [memText, h1, h2])
      simp [this]
    · rw [meaning, meaningObj_map, Fits, fitsObj_iff]
      refine ⟨?_, ?_⟩
      · intro v hv
        obtain ⟨e, he, rfl⟩ := List.mem_map.mp hv
        exact (hd e he).2.fits
      · rw [List.pairwise_map]
        exact h.2

theorem textAllOk : (l : List Ent) → SaneAll fmt l → ∀ e ∈ l, TextOk fmt e
  | [], _ => by simp
  | e :: l, h => by
    intro x hx
    have he := textOk e h.1
    rcases List.mem_cons.mp hx with hx | hx
    · rw [hx]; exact he
    · exact textAllOk l h.2 x hx

theorem textObjOk : (d : List (Text × Ent)) → SaneObj fmt d →
    ∀ p ∈ d, Plain p.1 ∧ TextOk fmt p.2
  | [], _ => by simp
  | (k, e) :: d, h => by
    intro x hx
    have he := textOk e h.2.1
    rcases List.mem_cons.mp hx with hx | hx
    · rw [hx]; exact ⟨h.1, he⟩
    · exact textObjOk d h.2.2 x hx

end

/-! ## The buffer -/

theorem append_fits {b : Blk} {p : Text} (h : b.text.length + p.length < b.cap) :
    append b b.addr p = some (⟨b.addr, b.cap, b.text ++ p⟩, b.addr) := by
  unfold append
  rw [if_neg (by simp), if_neg (by omega)]

/-- What printing text `p` does to the block. -/
def Grow (b b' : Blk) (p : Text) : Prop := b.addr ≤ b'.addr ∧ b'.text = b.text ++ p ∧
  (b'.addr = b.addr → b'.cap = b.cap ∧ b'.text.length < b.cap)

theorem Grow.trans {a b c : Blk} {p q : Text} (h1 : Grow a b p) (h2 : Grow b c q) : Grow a c (p ++ q) := by
  refine ⟨Nat.le_trans h1.1 h2.1, by rw [h2.2.1, h1.2.1, List.append_assoc], ?_⟩
  intro h
  have e1 : b.addr = a.addr := Nat.le_antisymm (h ▸ h2.1) h1.1
  have e2 : c.addr = b.addr := by rw [e1]; exact h
  obtain ⟨x1, x2⟩ := h1.2.2 e1
  obtain ⟨y1, y2⟩ := h2.2.2 e2
  exact ⟨by rw [y1, x1], by rw [← x1]; exact y2⟩

theorem append_grow {b b' : Blk} {jb jb' : Nat} {p : Text} (h : append b jb p = some (b', jb')) :
    jb = b.addr ∧ jb' = b'.addr ∧ Grow b b' p := by
  unfold append at h
  split at h
  · cases h
  · rename_i hj
    have hj : jb = b.addr := by simpa using hj
    split at h
    · cases h
      refine ⟨hj, rfl, by simp, rfl, ?_⟩
      intro h; simp at h
    · cases h
      refine ⟨hj, rfl, Nat.le_refl _, rfl, ?_⟩
      intro _
      refine ⟨rfl, ?_⟩
      simp only [List.length_append]
      omega

mutual

theorem dump_fits : (e : Ent) → (b : Blk) → b.text.length + (text fmt e).length < b.cap →
    dump fmt e b b.addr = some (⟨b.addr, b.cap, b.text ++ text fmt e⟩, b.addr)
  | .int v, b, h => append_fits h
  | .bool true, b, h => append_fits h
  | .bool false, b, h => append_fits h
  | .flt t, b, h => append_fits h
  | .str s, b, h => append_fits h
  | .null, b, h => append_fits h
  | .list l, b, h => by
    simp only [text, List.length_cons] at h
    rw [dump, append_fits (p := ['[']) (by simp only [List.length_singleton]; omega)]
    simp only
    rw [dumpList_fits l true ⟨b.addr, b.cap, b.text ++ ['[']⟩ (by
      simp only [List.length_append, List.length_singleton]; omega)]
    simp [text]
  | .dict d, b, h => by
    simp only [text, List.length_cons] at h
    rw [dump, append_fits (p := ['{']) (by simp only [List.length_singleton]; omega)]
    simp only
    rw [dumpDict_fits d true ⟨b.addr, b.cap, b.text ++ ['{']⟩ (by
      simp only [List.length_append, List.length_singleton]; omega)]
    simp [text]

theorem dumpList_fits : (l : List Ent) → (first : Bool) → (b : Blk) →
    b.text.length + (textAll fmt l first).length < b.cap →
    dumpList fmt l first b b.addr = some (⟨b.addr, b.cap, b.text ++ textAll fmt l first⟩, b.addr)
  | [], _, b, h => append_fits h
  | e :: l, true, b, h => by
    simp only [textAll, if_true, List.nil_append, List.length_append] at h
    rw [dumpList]
    simp only [if_true]
    rw [dump_fits e b (by omega)]
    simp only
    rw [dumpList_fits l false ⟨b.addr, b.cap, b.text ++ text fmt e⟩ (by
      simp only [List.length_append]; omega)]
    simp [textAll]
  | e :: l, false, b, h => by
    simp only [textAll, Bool.false_eq_true, if_false, List.length_append, List.length_singleton] at h
    rw [dumpList]
    simp only [Bool.false_eq_true, if_false]
    rw [append_fits (p := [',']) (by simp only [List.length_singleton]; omega)]
    simp only
    rw [dump_fits e ⟨b.addr, b.cap, b.text ++ [',']⟩ (by
      simp only [List.length_append, List.length_singleton]; omega)]
    simp only
    rw [dumpList_fits l false ⟨b.addr, b.cap, b.text ++ [','] ++ text fmt e⟩ (by
      simp only [List.length_append, List.length_singleton]; omega)]
    simp [textAll]

theorem dumpDict_fits : (d : List (Text × Ent)) → (first : Bool) → (b : Blk) →
    b.text.length + (textObj fmt d first).length < b.cap →
    dumpDict fmt d first b b.addr = some (⟨b.addr, b.cap, b.text ++ textObj fmt d first⟩, b.addr)
  | [], _, b, h => append_fits h
  | (k, e) :: d, true, b, h => by
    simp only [textObj, if_true, List.nil_append, List.length_append] at h
    rw [dumpDict]
    simp only [if_true]
    rw [append_fits (p := '"' :: k ++ ['"', ':']) (by simp only [List.length_append]; omega)]
    simp only
    rw [dump_fits e ⟨b.addr, b.cap, b.text ++ ('"' :: k ++ ['"', ':'])⟩ (by
      simp only [List.length_append]; omega)]
    simp only
    rw [dumpDict_fits d false ⟨b.addr, b.cap, b.text ++ ('"' :: k ++ ['"', ':']) ++ text fmt e⟩ (by
      simp only [List.length_append]; omega)]
    simp [textObj]
  | (k, e) :: d, false, b, h => by
    simp only [textObj, Bool.false_eq_true, if_false, List.length_append, List.length_singleton] at h
    rw [dumpDict]
    simp only [Bool.false_eq_true, if_false]
    rw [append_fits (p := [',']) (by simp only [List.length_singleton]; omega)]
    simp only
    rw [append_fits (b := ⟨b.addr, b.cap, b.text ++ [',']⟩) (p := '"' :: k ++ ['"', ':']) (by
      simp only [List.length_append, List.length_singleton]; omega)]
    simp only
    rw [dump_fits e ⟨b.addr, b.cap, b.text ++ [','] ++ ('"' :: k ++ ['"', ':'])⟩ (by
      simp only [List.length_append, List.length_singleton]; omega)]
    simp only
    rw [dumpDict_fits d false ⟨b.addr, b.cap, b.text ++ [','] ++ ('"' :: k ++ ['"', ':']) ++ text fmt e⟩ (by
      simp only [List.length_append, List.length_singleton]; omega)]
    simp [textObj]

end

theorem comma_grow {first : Bool} {b b' : Blk} {jb jb' : Nat}
    (h : (if first then some (b, jb) else append b jb [',']) = some (b', jb')) :
    (jb = b.addr → jb' = b'.addr) ∧ b.addr ≤ b'.addr ∧
      b'.text = b.text ++ (if first then [] else [',']) ∧
      (b'.addr = b.addr → b'.cap = b.cap ∧ (b.text.length < b.cap → b'.text.length < b.cap)) := by
  cases first
  · simp only [Bool.false_eq_true, if_false] at h ⊢
    obtain ⟨h1, h2, h3⟩ := append_grow h
    exact ⟨fun _ => h2, h3.1, h3.2.1, fun hx => ⟨(h3.2.2 hx).1, fun _ => (h3.2.2 hx).2⟩⟩
  · simp only [if_true, Option.some.injEq, Prod.mk.injEq] at h ⊢
    obtain ⟨rfl, rfl⟩ := h
    exact ⟨id, Nat.le_refl _, by simp, fun _ => ⟨rfl, id⟩⟩

/-- A block that has not moved has not overflowed. -/
def Kept (b b' : Blk) (p : Text) : Prop := b.addr ≤ b'.addr ∧ b'.text = b.text ++ p ∧
  (b'.addr = b.addr → b'.cap = b.cap ∧ (b.text.length < b.cap → b'.text.length < b.cap))

theorem Grow.kept {b b' : Blk} {p : Text} (h : Grow b b' p) : Kept b b' p :=
  ⟨h.1, h.2.1, fun hx => ⟨(h.2.2 hx).1, fun _ => (h.2.2 hx).2⟩⟩

theorem Kept.trans {a b c : Blk} {p q : Text} (h1 : Kept a b p) (h2 : Kept b c q) : Kept a c (p ++ q) := by
  refine ⟨Nat.le_trans h1.1 h2.1, by rw [h2.2.1, h1.2.1, List.append_assoc], ?_⟩
  intro h
  have e1 : b.addr = a.addr := Nat.le_antisymm (h ▸ h2.1) h1.1
  have e2 : c.addr = b.addr := by rw [e1]; exact h
  obtain ⟨x1, x2⟩ := h1.2.2 e1
  obtain ⟨y1, y2⟩ := h2.2.2 e2
  refine ⟨by rw [y1, x1], fun hl => ?_⟩
  rw [x1] at y2
  exact y2 (x2 hl)

mutual

theorem dump_kept : (e : Ent) → ∀ {b b' : Blk} {jb jb' : Nat}, dump fmt e b jb = some (b', jb') →
    Kept b b' (text fmt e)
  | .int v, _, _, _, _, h => (append_grow h).2.2.kept
  | .bool true, _, _, _, _, h => (append_grow h).2.2.kept
  | .bool false, _, _, _, _, h => (append_grow h).2.2.kept
  | .flt t, _, _, _, _, h => (append_grow h).2.2.kept
  | .str s, _, _, _, _, h => (append_grow h).2.2.kept
  | .null, _, _, _, _, h => (append_grow h).2.2.kept
  | .list l, b, b', jb, jb', h => by
    rw [dump] at h
    split at h
    · cases h
    · rename_i b1 jb1 h1
      obtain ⟨⟨b2, jb2⟩, h2, hp⟩ := Option.map_eq_some_iff.mp h
      cases hp
      exact (append_grow h1).2.2.kept.trans (dumpList_kept l true h2)
  | .dict d, b, b', jb, jb', h => by
    rw [dump] at h
    split at h
    · cases h
    · rename_i b1 jb1 h1
      obtain ⟨⟨b2, jb2⟩, h2, hp⟩ := Option.map_eq_some_iff.mp h
      cases hp
      exact (append_grow h1).2.2.kept.trans (dumpDict_kept d true h2)

theorem dumpList_kept : (l : List Ent) → (first : Bool) → ∀ {b b' : Blk} {jb jb' : Nat},
    dumpList fmt l first b jb = some (b', jb') → Kept b b' (textAll fmt l first)
  | [], _, _, _, _, _, h => (append_grow h).2.2.kept
  | e :: l, first, b, b', jb, jb', h => by
    rw [dumpList] at h
    split at h
    · cases h
    · rename_i b1 jb1 h1
      split at h
      · cases h
      · rename_i b2 jb2 h2
        rw [textAll]
        have k1 : Kept b b1 (if first then [] else [',']) := (comma_grow h1).2
        exact (k1.trans (dump_kept e h2)).trans (dumpList_kept l false h)

theorem dumpDict_kept : (d : List (Text × Ent)) → (first : Bool) → ∀ {b b' : Blk} {jb jb' : Nat},
    dumpDict fmt d first b jb = some (b', jb') → Kept b b' (textObj fmt d first)
  | [], _, _, _, _, _, h => (append_grow h).2.2.kept
  | (k, e) :: d, first, b, b', jb, jb', h => by
    rw [dumpDict] at h
    split at h
    · cases h
    · rename_i b1 jb1 h1
      split at h
      · cases h
      · rename_i b2 jb2 h2
        split at h
        · cases h
        · rename_i b3 jb3 h3
          rw [textObj]
          have k1 : Kept b b1 (if first then [] else [',']) := (comma_grow h1).2
          exact ((k1.trans (append_grow h2).2.2.kept).trans (dump_kept e h3)).trans
            (dumpDict_kept d false h)

end

/-! ## Copies -/

theorem sameObj_mem {d d' : List (Text × Ent)} (h : SameObj d d') : d'.map (·.1) = d.map (·.1) := by
  induction d generalizing d' with
  | nil => cases h; rfl
  | cons p d ih => cases h with | cons _ h => simp [ih h]

mutual

theorem copy_same : (e : Ent) → NoPrefix e → Same e (copy e)
  | .int v, _ => .int v
  | .bool b, _ => .bool b
  | .flt t, _ => .flt t
  | .str s, _ => .str s
  | .null, _ => .null
  | .list l, h => .list (copyList_same l h)
  | .dict d, h => by
    obtain ⟨d', h1, h2⟩ := copyDict_same d h.1 h.2 [] (by simp)
    rw [List.append_nil] at h2
    exact .dict h1 h2.symm

theorem copyList_same : (l : List Ent) → NoPrefixAll l → SameAll l (copyList l)
  | [], _ => .nil
  | e :: l, h => .cons (copy_same e h.1) (copyList_same l h.2)

theorem copyDict_same : (d : List (Text × Ent)) → NoPrefixObj d →
    d.Pairwise (fun a b => ¬ b.1 <+: a.1) → (acc : List (Text × Ent)) →
    (∀ p ∈ acc, ∀ q ∈ d, ¬ q.1 <+: p.1) → ∃ d', SameObj d d' ∧ (copyDict d acc).Perm (d' ++ acc)
  | [], _, _, _, _ => ⟨[], .nil, .refl _⟩
  | (k, e) :: d, h, hp, acc, hacc => by
    rw [List.pairwise_cons] at hp
    have ha := attrAdd_perm (copy e) fun p hp => hacc p hp (k, e) (by simp)
    obtain ⟨d', h1, h2⟩ := copyDict_same d h.2 hp.2 (attrAdd acc k (copy e)) (by
      intro p hp' q hq
      rcases List.mem_cons.mp (ha.mem_iff.mp hp') with rfl | hp'
      · exact hp.1 q hq
      · exact hacc p hp' q (List.mem_cons_of_mem _ hq))
    refine ⟨(k, copy e) :: d', .cons (copy_same e h.1) h1, ?_⟩
    rw [copyDict]
    exact (h2.trans (ha.append_left d')).trans List.perm_middle

end

end Verif.JsonText
