import Verif.PlugAttr.Props
import Mathlib.Data.List.Nodup

/-!
# C88: the file of options
-/

namespace Verif.PlugAttr

open Verif.Av (Str Ent avIdxOf Words avs kws entOf blank IsSep IsWord)

theorem space_iff {c : Char} : isSpace c = true ↔ White c := by
  have e1 : c.toNat = 11 ↔ c = Char.ofNat 11 :=
    ⟨fun h => by rw [← h, Char.ofNat_toNat], fun h => by rw [h]; rfl⟩
  have e2 : c.toNat = 12 ↔ c = Char.ofNat 12 :=
    ⟨fun h => by rw [← h, Char.ofNat_toNat], fun h => by rw [h]; rfl⟩
  simp only [isSpace, White, Bool.or_eq_true, beq_iff_eq, e1, e2, or_assoc, List.mem_cons, List.not_mem_nil, or_false]

theorem sizeLoop_le : ∀ {s : Str} {sp : Bool} {n : Nat}, n ≤ sizeLoop s sp n
  | [], _, _ => Nat.le_refl _
  | c :: s, sp, n => by
    unfold sizeLoop
    split
    · refine Nat.le_trans ?_ sizeLoop_le
      split <;> omega
    · exact sizeLoop_le

theorem size_two {s : Str} : ∀ {n : Nat}, n < sizeLoop s false n ↔ ∃ c ∈ s, White c := by
  induction s with
  | nil => intro n; simp [sizeLoop]
  | cons c s ih =>
    intro n
    unfold sizeLoop
    by_cases h : isSpace c = true
    · rw [if_pos h, if_neg (by simp)]
      refine ⟨fun _ => ⟨c, List.mem_cons_self .., space_iff.1 h⟩, fun _ => ?_⟩
      have := sizeLoop_le (s := s) (sp := true) (n := n + 1)
      omega
    · rw [if_neg h, ih]
      have : ¬ White c := fun hh => h (space_iff.2 hh)
      simp [this]

theorem sizeLoop_sep {a t : Str} : ∀ {sp : Bool} {n : Nat}, ∃ sp' n', n ≤ n' ∧ sizeLoop (a ++ t) sp n = sizeLoop t sp' n' := by
  induction a with
  | nil => intro sp n; exact ⟨sp, n, Nat.le_refl _, rfl⟩
  | cons c a ih =>
    intro sp n
    rw [List.cons_append, sizeLoop]
    split
    · obtain ⟨sp', n', h1, h2⟩ := ih (sp := true) (n := if sp = true then n else n + 1)
      refine ⟨sp', n', Nat.le_trans ?_ h1, h2⟩
      split <;> omega
    · exact ih

theorem sizeLoop_word {t : Str} : ∀ {w : Str} {sp : Bool} {n : Nat}, w ≠ [] → (∀ c ∈ w, isSpace c = false) →
    sizeLoop (w ++ t) sp n = sizeLoop t false n
  | [], _, _, h, _ => absurd rfl h
  | [c], sp, n, _, h => by
    rw [List.singleton_append, sizeLoop, if_neg (by simp [h c (by simp)])]
  | c :: d :: w, sp, n, _, h => by
    rw [List.cons_append, sizeLoop, if_neg (by simp [h c (by simp)])]
    exact sizeLoop_word (by simp) fun x hx => h x (List.mem_cons_of_mem _ hx)

/-- the only white space of a line is what separates words -/
def Plain (s : Str) : Prop := ∀ c ∈ s, White c → c = ' ' ∨ c = '\t' ∨ c = '\n'

theorem plain_space {s : Str} (h : Plain s) {c : Char} (hc : c ∈ s) (hb : blank c = false) : isSpace c = false := by
  rw [← Bool.not_eq_true]
  intro hh
  rcases h c hc (space_iff.1 hh) with rfl | rfl | rfl <;> simp [blank] at hb

theorem blank_space {c : Char} (h : blank c = true) : isSpace c = true := by
  simp only [blank, List.contains_eq_mem, decide_eq_true_eq, List.mem_cons, List.not_mem_nil, or_false] at h
  rcases h with rfl | rfl | rfl <;> rfl

theorem words_size {s : Str} {ws : List Str} (h : Words s ws) : ∀ {sp : Bool} {n : Nat}, Plain s → n + ws.length ≤ sizeLoop s sp n + 1 := by
  induction h with
  | nil _ =>
    intro sp n _
    have := sizeLoop_le (s := ‹Str›) (sp := sp) (n := n)
    simp only [List.length_nil]; omega
  | @one a w _ _ =>
    intro sp n _
    have := sizeLoop_le (s := a ++ w) (sp := sp) (n := n)
    simp only [List.length_cons, List.length_nil]; omega
  | @cons a w r d ws ha hw hd _ ih =>
    intro sp n hp
    rw [List.append_assoc]
    obtain ⟨sp', n', h1, h2⟩ := sizeLoop_sep (a := a) (t := w ++ d :: r) (sp := sp) (n := n)
    rw [h2, sizeLoop_word hw.1 (fun c hc => plain_space hp (by simp [hc]) (hw.2 c hc))]
    rw [sizeLoop, if_pos (blank_space hd), if_neg (by simp)]
    have := ih (sp := true) (n := n' + 1) (fun c hc => hp c (by simp [hc]))
    simp only [List.length_cons]
    omega

theorem avs_valued {ws : List Str} : Valued (avs ws) := by
  intro e he
  obtain ⟨w, hw, rfl⟩ := List.mem_map.1 he
  have : '=' ∈ w := by simpa using (List.mem_filter.1 hw).2
  simp [entOf, this]

theorem kws_name {ws : List Str} {name : Str} : (∃ e ∈ kws ws, e.name = name) ↔ name ∈ ws ∧ '=' ∉ name := by
  unfold kws
  constructor
  · rintro ⟨e, he, rfl⟩
    obtain ⟨w, hw, rfl⟩ := List.mem_map.1 he
    obtain ⟨h1, h2⟩ := List.mem_filter.1 hw
    have : '=' ∉ w := by simpa using h2
    simp [entOf, this, h1]
  · rintro ⟨h1, h2⟩
    exact ⟨entOf name, List.mem_map.2 ⟨name, List.mem_filter.2 ⟨h1, by simp [h2]⟩, rfl⟩, by simp [entOf, h2]⟩

theorem no_words {ws : List Str} : (avs ws = [] ∧ kws ws = []) ↔ ws = [] := by
  constructor
  · rintro ⟨h1, h2⟩
    unfold avs at h1
    unfold kws at h2
    rw [List.map_eq_nil_iff, List.filter_eq_nil_iff] at h1 h2
    cases ws with
    | nil => rfl
    | cons w ws =>
      have a := h1 w (List.mem_cons_self ..)
      have b := h2 w (List.mem_cons_self ..)
      simp only [decide_eq_true_eq] at a
      simp [a] at b
  · rintro rfl
    exact ⟨rfl, rfl⟩

theorem sub_length {α : Type} [DecidableEq α] : ∀ {a b : List α}, a.Nodup → (∀ x ∈ a, x ∈ b) → a.length ≤ b.length
  | [], _, _, _ => Nat.zero_le _
  | x :: a, b, hn, hs => by
    obtain ⟨h1, h2⟩ := List.nodup_cons.1 hn
    have hx := hs x (List.mem_cons_self ..)
    have := sub_length (b := b.erase x) h2 (fun y hy => (List.mem_erase_of_ne (fun h : y = x => h1 (h ▸ hy))).2 (hs y (List.mem_cons_of_mem _ hy)))
    rw [List.length_erase_of_mem hx] at this
    have := List.length_pos_of_mem hx
    simp only [List.length_cons]
    omega

theorem key_length {exp : Str → Str} {l : List Ent} {keys : List Str} {k : Str} (hn : keys.Nodup) (h : KeyOf exp l keys k) :
    keys.length ≤ l.length := by
  obtain ⟨vs, h1, _⟩ := h
  rw [← List.length_map (f := fun e : Ent => e.name) (as := l)]
  refine sub_length hn fun x hx => ?_
  have : ((given exp l x).head?).join ∈ vs.map some := h1 ▸ List.mem_map.2 ⟨x, hx, rfl⟩
  obtain ⟨v, _, hv⟩ := List.mem_map.1 this
  false_or_by_contra
  rename_i hc
  have : given exp l x = [] := given_none.2 fun e he hh => hc (List.mem_map.2 ⟨e, he, hh⟩)
  rw [this] at hv
  cases hv

theorem insert_ok {idx idx' : List (Str × Pair)} {k : Str} {p : Pair} :
    insert idx k p = some (some idx') ↔ k ≠ [] ∧ find idx k = none ∧ idx' = idx ++ [(k, p)] := by
  unfold insert
  by_cases hk : k = []
  · simp [hk]
  · rw [if_neg hk]
    cases find idx k with
    | none => simp [hk, eq_comm]
    | some q => simp

theorem key_cases {exp : Str → Str} {name : Str} {keys : List Str} (hn : keys.Nodup) {ws : List Str} {k : Str} :
    lineKey exp name keys (avs ws) (kws ws) = some k ↔
    (KeyOf exp (avs ws) keys k ∨ ((¬ ∃ k, KeyOf exp (avs ws) keys k) ∧ name ∈ ws ∧ '=' ∉ name ∧ k = name)) := by
  have h0 : (if (avs ws).length ≥ keys.length then getKey exp (avs ws) keys else none) = getKey exp (avs ws) keys := by
    split
    · rfl
    · rename_i hl
      cases hg : getKey exp (avs ws) keys with
      | none => rfl
      | some k => exact absurd (key_length hn (getKey_iff.1 hg)) hl
  unfold lineKey
  rw [h0]
  cases hg : getKey exp (avs ws) keys with
  | some k' =>
    simp only [Option.some.injEq]
    constructor
    · rintro rfl; exact .inl (getKey_iff.1 hg)
    · rintro (h | ⟨h, _⟩)
      · have := getKey_iff.2 h
        rw [hg] at this
        simpa using this
      · exact absurd ⟨k', getKey_iff.1 hg⟩ h
  | none =>
    have hno : ∀ k, ¬ KeyOf exp (avs ws) keys k := fun k h => by rw [getKey_iff.2 h] at hg; cases hg
    simp only
    by_cases hi : avIdxOf (kws ws) name = -1
    · rw [if_pos hi]
      simp only [reduceCtorEq, false_iff]
      rintro (h | ⟨_, h1, h2, _⟩)
      · exact hno _ h
      · obtain ⟨e, he, hh⟩ := kws_name.2 ⟨h1, h2⟩
        exact idx_absent.1 hi e he hh
    · rw [if_neg hi]
      have : name ∈ ws ∧ '=' ∉ name := by
        rw [← kws_name]
        false_or_by_contra
        rename_i hc
        exact hi (idx_absent.2 fun e he hh => hc ⟨e, he, hh⟩)
      simp only [Option.some.injEq]
      constructor
      · rintro rfl; exact .inr ⟨fun ⟨k, h⟩ => hno k h, this.1, this.2, rfl⟩
      · rintro (h | ⟨_, _, _, h⟩)
        · exact absurd h (hno k)
        · exact h.symm

theorem line_sound {exp : Str → Str} {name : Str} {r : Rules} (hn : r.keys.Nodup) {s : Str} {idx idx' : List (Str × Pair)}
    (h : line exp name r s idx = some (some idx')) :
    (Ignored s ∧ idx' = idx) ∨ ∃ x, RowOf exp name r s x ∧ x.1 ≠ [] ∧ find idx x.1 = none ∧ idx' = idx ++ [x] := by
  unfold line at h
  simp only at h
  by_cases hs : sizeLoop s false 1 < 2
  · rw [if_pos hs] at h
    simp only [Option.some.injEq] at h
    refine .inl ⟨.inr fun c hc hw => ?_, h.symm⟩
    have := (size_two (n := 1)).2 ⟨c, hc, hw⟩
    omega
  · rw [if_neg hs] at h
    obtain ⟨ws, hws⟩ := Verif.Av.words_exist s
    rw [Verif.Av.tokenize_words hws] at h
    split at h
    · simp at h
    · rename_i kvl avl he
      split at he
      · simp only [Option.some.injEq, Prod.mk.injEq] at he
        obtain ⟨rfl, rfl⟩ := he
        by_cases hw : avs ws = [] ∧ kws ws = []
        · rw [if_pos hw] at h
          simp only [Option.some.injEq] at h
          have := no_words.1 hw
          subst this
          exact .inl ⟨.inl hws, h.symm⟩
        · rw [if_neg hw] at h
          split at h
          · simp at h
          · rename_i k hk
            rw [key_cases hn] at hk
            split at h
            · simp at h
            · rename_i hb1
              split at h
              · simp at h
              · rename_i hb2
                obtain ⟨h1, h2, h3⟩ := insert_ok.1 h
                refine .inr ⟨(k, ⟨avs ws, kws ws⟩), ⟨ws, hws, fun hh => hw (no_words.2 hh), ?_, rfl, hk, ?_, ?_⟩, h1, h2, h3⟩
                · exact (size_two (n := 1)).1 (by omega)
                · exact fun hh => hb2 (blacklist_iff.2 (.inr hh))
                · exact fun hh => hb1 (blacklist_iff.2 (.inr hh))
      · simp at he

theorem line_row {exp : Str → Str} {name : Str} {r : Rules} (hn : r.keys.Nodup) {s : Str} {idx : List (Str × Pair)} {x : Str × Pair}
    (hp : Plain s) (hx : RowOf exp name r s x) (h1 : x.1 ≠ []) (h2 : find idx x.1 = none) :
    line exp name r s idx = some (some (idx ++ [x])) := by
  obtain ⟨ws, hws, hne, hc, hx2, hk, hb1, hb2⟩ := hx
  obtain ⟨k, p⟩ := x
  simp only at *
  subst hx2
  have hsz := (size_two (n := 1)).2 hc
  have hlen := words_size hws (sp := false) (n := 1) hp
  have ha : (avs ws).length ≤ ws.length := by unfold avs; rw [List.length_map]; exact List.length_filter_le ..
  have hkl : (kws ws).length ≤ ws.length := by unfold kws; rw [List.length_map]; exact List.length_filter_le ..
  unfold line
  simp only
  rw [if_neg (by omega), Verif.Av.tokenize_words hws, if_pos ⟨by omega, by omega⟩]
  simp only
  rw [if_neg (fun hh => hne (no_words.1 hh))]
  have := (key_cases (exp := exp) (name := name) hn).2 hk
  simp only [this]
  rw [if_neg (fun hh => hb2 ((blacklist_iff.1 hh).resolve_left (by simp))), if_neg (fun hh => hb1 ((blacklist_iff.1 hh).resolve_left (by simp)))]
  exact insert_ok.2 ⟨h1, h2, rfl⟩

theorem line_ignored {exp : Str → Str} {name : Str} {r : Rules} {s : Str} {idx : List (Str × Pair)} (h : Ignored s) :
    line exp name r s idx = some (some idx) := by
  unfold line
  simp only
  rcases h with h | h
  · split
    · rfl
    · rw [Verif.Av.tokenize_words h]
      simp [avs, kws]
  · rw [if_pos]
    false_or_by_contra
    rename_i hh
    obtain ⟨c, hc, hw⟩ := (size_two (s := s) (n := 1)).1 (by omega)
    exact h c hc hw

theorem find_none {idx : List (Str × Pair)} {k : Str} (hk : k ≠ []) : find idx k = none ↔ k ∉ idx.map (·.1) := by
  induction idx with
  | nil => simp [find]
  | cons x idx ih =>
    obtain ⟨a, p⟩ := x
    unfold find
    by_cases h : a = k
    · simp [h, hk]
    · have h' : ¬ k = a := fun hh => h hh.symm
      rw [if_neg (by simp [h]), ih]
      simp [h']

theorem lines_sound {exp : Str → Str} {name : Str} {r : Rules} (hn : r.keys.Nodup) : ∀ {ss : List Str} {idx idx' : List (Str × Pair)},
    lines exp name r ss idx = some (some idx') → (idx.map (·.1)).Nodup →
    ∃ rows, FileOf exp name r ss rows ∧ idx' = idx ++ rows ∧ (idx'.map (·.1)).Nodup ∧ ∀ x ∈ rows, Valued x.2.avl ∧ x.1 ≠ []
  | [], idx, idx', h, hd => by
    simp only [lines, Option.some.injEq] at h
    subst h
    exact ⟨[], .nil, by simp, hd, by simp⟩
  | s :: ss, idx, idx', h, hd => by
    unfold lines at h
    split at h
    · cases h
    · simp at h
    · rename_i idx1 hl
      rcases line_sound hn hl with ⟨hi, rfl⟩ | ⟨x, hx, h1, h2, rfl⟩
      · obtain ⟨rows, a, b, c, d⟩ := lines_sound hn h hd
        exact ⟨rows, .skip hi a, b, c, d⟩
      · have hd1 : ((idx ++ [x]).map (·.1)).Nodup := by
          rw [List.map_append, List.nodup_append]
          refine ⟨hd, by simp, ?_⟩
          rintro a ha b hb rfl
          simp only [List.map_cons, List.map_nil, List.mem_singleton] at hb
          exact (find_none h1).1 h2 (hb ▸ ha)
        obtain ⟨rows, a, b, c, d⟩ := lines_sound hn h hd1
        refine ⟨x :: rows, .row hx a, by simp [b], c, ?_⟩
        intro y hy
        rcases List.mem_cons.1 hy with rfl | hy
        · obtain ⟨ws, _, _, _, e, _⟩ := hx
          exact ⟨e ▸ avs_valued, h1⟩
        · exact d y hy

theorem lines_complete {exp : Str → Str} {name : Str} {r : Rules} (hn : r.keys.Nodup) {ss : List Str} {rows : List (Str × Pair)}
    (h : FileOf exp name r ss rows) : ∀ {idx : List (Str × Pair)}, (∀ s ∈ ss, Plain s) → ((idx ++ rows).map (·.1)).Nodup →
    (∀ x ∈ rows, x.1 ≠ []) → lines exp name r ss idx = some (some (idx ++ rows)) := by
  induction h with
  | nil => intro idx _ _ _; simp [lines]
  | skip hi _ ih =>
    intro idx hp hd hne
    unfold lines
    rw [line_ignored hi]
    exact ih (fun s hs => hp s (List.mem_cons_of_mem _ hs)) hd hne
  | @row s ss x rows hx _ ih =>
    intro idx hp hd hne
    unfold lines
    have h1 := hne x (List.mem_cons_self ..)
    have h2 : find idx x.1 = none := by
      rw [find_none h1]
      intro hm
      rw [List.map_append, List.nodup_append] at hd
      exact hd.2.2 _ hm x.1 (by simp) rfl
    rw [line_row hn (hp s (List.mem_cons_self ..)) hx h1 h2]
    simp only
    rw [ih (fun s hs => hp s (List.mem_cons_of_mem _ hs)) (by simpa using hd) (fun y hy => hne y (List.mem_cons_of_mem _ hy))]
    simp

/-- *Reading the file: nothing else.*  If it succeeds, each line means an entry or nothing, the entries are those of the lines,
no two lines have the same key, nothing in the command or the file is banned and the command uses nothing unsupported. -/
theorem create_sound {exp : Str → Str} {file : List Str} {name : Str} {p : Pair} {r : Rules} {pa : PA} (hn : r.keys.Nodup)
    (hv : Valued p.avl) (hd : Alternatives r.deps) (h : create exp file name p r = some (some pa)) :
    Wf pa ∧ FileOf exp name r file pa.idx ∧ pa.over = p ∧ pa.name = name ∧ ¬ Refused exp p r := by
  unfold create at h
  split at h
  · simp at h
  · rename_i h1
    split at h
    · simp at h
    · rename_i h2
      split at h
      · simp at h
      · rename_i h3
        split at h
        · cases h
        · simp at h
        · rename_i idx hl
          simp only [Option.some.injEq] at h
          subst h
          obtain ⟨rows, a, b, c, d⟩ := lines_sound hn hl (by simp)
          simp only [List.nil_append] at b
          subst b
          refine ⟨⟨hv, d, c⟩, a, rfl, rfl, ?_⟩
          rintro (h | h | h)
          · exact h1 ((deprecated_partial hv hd).2 h)
          · exact h3 (blacklist_iff.2 (.inr h))
          · exact h2 (blacklist_iff.2 (.inr h))

/-- *Reading the file: all of it.*  If each line means an entry or nothing, no two have the same key and no key is empty, and
nothing is refused, it succeeds with the entries of the lines. -/
theorem create_complete {exp : Str → Str} {file : List Str} {name : Str} {p : Pair} {r : Rules} {rows : List (Str × Pair)} (hn : r.keys.Nodup)
    (hv : Valued p.avl) (hd : Alternatives r.deps) (hp : ∀ s ∈ file, Plain s) (hf : FileOf exp name r file rows)
    (hu : (rows.map (·.1)).Nodup) (hne : ∀ x ∈ rows, x.1 ≠ []) (hr : ¬ Refused exp p r) :
    create exp file name p r = some (some ⟨p, name, rows⟩) := by
  unfold create
  rw [if_neg (fun h => hr (.inl ((deprecated_partial hv hd).1 h))),
    if_neg (fun h => hr (.inr (.inr ((blacklist_iff.1 h).resolve_left (by simp))))),
    if_neg (fun h => hr (.inr (.inl ((blacklist_iff.1 h).resolve_left (by simp))))),
    lines_complete hn hf hp (by simpa using hu) hne]
  simp

example : ∃ rows, FileOf id "p".toList ⟨["z".toList], [], [], ["a".toList]⟩ ["a=x b=y".toList, [' '], "p c=1".toList] rows ∧ (rows.map (·.1)).Nodup ∧
    rows.map (·.1) = ["x".toList, "p".toList] ∧ (∀ s ∈ ["a=x b=y".toList, [' '], "p c=1".toList], Plain s) := by
  have hw : Words "a=x b=y".toList ["a=x".toList, "b=y".toList] :=
    .cons (a := []) (w := "a=x".toList) (d := ' ') (r := "b=y".toList) (by simp [IsSep]) (by simp [IsWord]; decide) rfl
      (.one (a := []) (by simp [IsSep]) (by simp [IsWord]; decide))
  have hw2 : Words "p c=1".toList ["p".toList, "c=1".toList] :=
    .cons (a := []) (w := "p".toList) (d := ' ') (r := "c=1".toList) (by simp [IsSep]) (by simp [IsWord]; decide) rfl
      (.one (a := []) (by simp [IsSep]) (by simp [IsWord]; decide))
  refine ⟨[("x".toList, ⟨_, _⟩), ("p".toList, ⟨_, _⟩)], .row ⟨_, hw, by simp, ⟨' ', by simp, by simp [White]⟩, rfl, .inl ⟨["x".toList], by decide, by simp⟩, ?_, ?_⟩
    (.skip (.inl (.nil (by simp [IsSep]; decide))) (.row ⟨_, hw2, by simp, ⟨' ', by simp, by simp [White]⟩, rfl, .inr ⟨?_, by decide, by decide, rfl⟩, ?_, ?_⟩ .nil)),
    by decide, rfl, ?_⟩
  · rintro ⟨e, he, h⟩; simp [avs, entOf] at he; rcases he with rfl | rfl <;> simp at h
  · rintro ⟨e, he, h⟩; simp at h
  · rintro ⟨k, vs, h, _⟩
    cases vs with
    | nil => simp at h
    | cons v vs => simp [given, avs, entOf] at h
  · rintro ⟨e, he, h⟩; simp [avs, entOf] at he; subst he; simp at h
  · rintro ⟨e, he, h⟩; simp at h
  · have hd : ∀ s ∈ ["a=x b=y".toList, [' '], "p c=1".toList], ∀ c ∈ s, c ∈ [' ', '\t', '\n', '\r', Char.ofNat 11, Char.ofNat 12] → c = ' ' ∨ c = '\t' ∨ c = '\n' := by
      decide
    exact hd

/-- *Defect.*  What is no longer supported is found in the command but not in the file. -/
theorem file_deprecated_defect (name : Str) :
    let r : Rules := ⟨[], [], [⟨"b".toList, none, true⟩], ["a".toList]⟩
    ∃ pa, create id ["a=x b=y".toList] name ⟨[], []⟩ r = some (some pa) ∧
      ∃ q, entry pa "x".toList = some q ∧ Obsolete id q r.deps := by
  refine ⟨⟨⟨[], []⟩, name, [("x".toList, ⟨[⟨"a".toList, some "x".toList⟩, ⟨"b".toList, some "y".toList⟩], []⟩)]⟩, ?_, _, rfl,
    ⟨⟨"b".toList, none, true⟩, by simp, rfl, .inr ⟨⟨⟨"b".toList, some "y".toList⟩, by simp, rfl⟩, .inl rfl⟩⟩⟩
  have hw : Words "a=x b=y".toList ["a=x".toList, "b=y".toList] :=
    .cons (a := []) (w := "a=x".toList) (d := ' ') (r := "b=y".toList) (by simp [IsSep]) (by simp [IsWord]; decide) rfl
      (.one (a := []) (by simp [IsSep]) (by simp [IsWord]; decide))
  have hl : line id name ⟨[], [], [⟨"b".toList, none, true⟩], ["a".toList]⟩ "a=x b=y".toList [] =
      some (some [("x".toList, ⟨[⟨"a".toList, some "x".toList⟩, ⟨"b".toList, some "y".toList⟩], []⟩)]) := by
    unfold line
    simp only
    rw [if_neg (by decide), Verif.Av.tokenize_words hw, if_pos (by decide)]
    rfl
  unfold create lines lines
  rw [hl]
  rfl

/-- *Defect.*  A single word on a line of its own is ignored, whatever it says: a banned option, or no option at all. -/
theorem single_word_defect (exp : Str → Str) (w name : Str) (r : Rules) (hw : ∀ c ∈ w, ¬ White c) (hr : ¬ Obsolete exp ⟨[], []⟩ r.deps)
    (hd : Alternatives r.deps) (hn : r.keys.Nodup) : create exp [w] name ⟨[], []⟩ r = some (some ⟨⟨[], []⟩, name, []⟩) := by
  refine create_complete hn (by simp [Valued]) hd ?_ (.skip (.inr hw) .nil) (by simp) (by simp) ?_
  · intro s hs c hc h
    rw [List.mem_singleton.1 hs] at hc
    exact absurd h (hw c hc)
  · rintro (h | ⟨e, he, _⟩ | ⟨e, he, _⟩)
    · exact hr h
    · cases he
    · cases he

/-- *Defect.*  With the name of the plugin as the key, the options of the command are not ignored, as the description of the
function says. -/
theorem plugin_key_defect (exp : Str → Str) (name attr v : Str) :
    value exp ⟨⟨[⟨attr, some v⟩], []⟩, name, []⟩ attr (some name) = some (exp v) := by
  simp [value, find, avValue]

end Verif.PlugAttr
