import Verif.Dir.Reply

/-!
# The loop over the names
-/

namespace Verif.Dir

open Verif.JsonText (text)

/-- What is in the buffer: nothing, or a header and sets. -/
def Cur (cur : Text) (l : List SetRec) : Prop := (cur = [] ∧ l = []) ∨ ∃ b, cur = header ++ body b l

/-- The buffer with a header. -/
def start (cur : Text) : Text := if cur = [] then header else cur

/-- The buffer after a set. -/
def next (acc : SetRec → Bool) (L : Nat) (s : SetRec) (cur : Text) : Text :=
  if acc s then start cur ++ fmtMeta s (cur ≠ []) (L - (start cur).length - 3) else start cur

variable {acc : SetRec → Bool} {L : Nat}

theorem header_len : header.length = 17 := rfl

attribute [local irreducible] header

theorem header_ne (t : Text) : header ++ t ≠ [] := by
  intro h
  have := congrArg List.length h
  rw [List.length_append, header_len] at this
  simp only [List.length_nil] at this
  omega


theorem start_header (t : Text) : start (header ++ t) = header ++ t := by
  unfold start
  rw [if_neg (header_ne t)]

theorem loop_some (hL : 20 < L) (n : Nat) (s : SetRec) (rest : List (Option SetRec)) (cur : Text) :
    dirLoop acc L (n + 1) (some s :: rest) cur =
      if (next acc L s cur).length ≥ L - 3 then
        (⟨0, true, cur ++ closing⟩ :: (dirLoop acc L n (some s :: rest) []).1,
          (dirLoop acc L n (some s :: rest) []).2)
      else if rest = [] then
        if (next acc L s cur ++ closing).length ≥ L - 3 then ([⟨ENOMEM, false, []⟩], true)
        else ([⟨0, false, next acc L s cur ++ closing⟩], true)
      else dirLoop acc L n rest (next acc L s cur) := by
  rw [dirLoop]
  simp only
  rw [if_neg (by rw [header_len]; omega)]
  rfl

theorem start_cur {cur : Text} {l : List SetRec} (h : Cur cur l) : ∃ b, start cur = header ++ body b l := by
  rcases h with ⟨rfl, rfl⟩ | ⟨b, rfl⟩
  · exact ⟨false, by simp [start, body]⟩
  · exact ⟨b, start_header _⟩

theorem start_len {cur : Text} {l : List SetRec} (h : Cur cur l) : 17 ≤ (start cur).length := by
  obtain ⟨b, hb⟩ := start_cur h
  rw [hb, List.length_append, header_len]
  omega

theorem next_no {s : SetRec} {cur : Text} (h : acc s = false) : next acc L s cur = start cur := by
  unfold next
  rw [h]
  rfl

theorem next_fits {s : SetRec} {cur : Text} {l : List SetRec} (hc : Cur cur l) (h : acc s = true)
    (hf : (start cur).length + width s < L - 3) :
    (∃ b, next acc L s cur = header ++ body b (l ++ [s])) ∧
      (next acc L s cur).length = (start cur).length + width s := by
  unfold next
  rw [h, if_pos rfl, fmt_fits (by omega)]
  constructor
  · rcases hc with ⟨rfl, rfl⟩ | ⟨b, rfl⟩
    · exact ⟨false, by simp [start, body]⟩
    · refine ⟨if l = [] then true else b, ?_⟩
      rw [body_snoc]
      rw [start_header]
      have hne : decide (header ++ body b l ≠ []) = true := decide_eq_true (header_ne _)
      rw [hne]
      cases l with
      | nil => simp [body]
      | cons t l => simp
  · rw [List.length_append, List.length_cons, width_eq]

theorem next_long {s : SetRec} {cur : Text} (h : acc s = true)
    (hf : L - 3 ≤ (start cur).length + width s) (hs : (start cur).length ≤ L - 3) :
    L - 3 ≤ (next acc L s cur).length := by
  unfold next
  rw [h, if_pos rfl, List.length_append]
  have := fmt_long (s := s) (c := decide (cur ≠ [])) (size := L - (start cur).length - 3) (by omega)
  omega

theorem start_small {cur : Text} (hL : 20 < L) (h : cur = [] ∨ cur.length < L - 3) : (start cur).length < L - 3 := by
  unfold start
  split
  · rw [header_len]; omega
  · rename_i hc
    rcases h with h | h
    · exact absurd h hc
    · exact h

theorem Failed.cons {m : Msg} {ms : List Msg} (hm : m.more = true) (h : Failed ms) : Failed (m :: ms) := by
  obtain ⟨pre, rfl, hp⟩ := h
  refine ⟨m :: pre, rfl, ?_⟩
  intro x hx
  rcases List.mem_cons.mp hx with rfl | hx
  · exact hm
  · exact hp x hx

theorem loop_complete (hL : 20 < L) : ∀ (names : List SetRec) (l : List SetRec) (cur : Text) (n : Nat),
    names ≠ [] → Cur cur l → (cur = [] ∨ cur.length < L - 3) → (∀ s ∈ l, Ordinary s) →
    (∀ s ∈ names, acc s = true → Ordinary s ∧ 17 + width s < L - 3) → 2 * names.length ≤ n →
    (dirLoop acc L n (names.map some) cur).2 = true ∧
      (Whole ((dirLoop acc L n (names.map some) cur).1.map processReply) ((l ++ names.filter acc).map shown) ∨
        Failed (dirLoop acc L n (names.map some) cur).1) := by
  intro names
  induction names with
  | nil => intro l cur n h; exact absurd rfl h
  | cons s rest ih =>
    -- the step when the set fits
    have fit : ∀ (l : List SetRec) (cur : Text) (n : Nat), Cur cur l → (∀ s ∈ l, Ordinary s) →
        (∀ t ∈ s :: rest, acc t = true → Ordinary t ∧ 17 + width t < L - 3) → 2 * rest.length + 1 ≤ n →
        (∃ b, next acc L s cur = header ++ body b (l ++ [s].filter acc)) → (next acc L s cur).length < L - 3 →
        (dirLoop acc L n ((s :: rest).map some) cur).2 = true ∧
          (Whole ((dirLoop acc L n ((s :: rest).map some) cur).1.map processReply)
            ((l ++ (s :: rest).filter acc).map shown) ∨ Failed (dirLoop acc L n ((s :: rest).map some) cur).1) := by
      intro l cur n hc ho hn hfu hb hlen
      obtain ⟨n, rfl⟩ : ∃ k, n = k + 1 := ⟨n - 1, by omega⟩
      have ho' : ∀ t ∈ l ++ [s].filter acc, Ordinary t := by
        intro t ht
        rcases List.mem_append.mp ht with ht | ht
        · exact ho t ht
        · obtain ⟨h1, h2⟩ := List.mem_filter.mp ht
          rw [List.mem_singleton] at h1
          subst h1
          exact (hn t (by simp) h2).1
      rw [List.map_cons, loop_some hL, if_neg (by omega)]
      obtain ⟨b, hb⟩ := hb
      cases rest with
      | nil =>
        rw [List.map_nil, if_pos rfl]
        split
        · exact ⟨rfl, .inr ⟨[], rfl, fun _ h => (by cases h)⟩⟩
        · refine ⟨rfl, .inl ?_⟩
          simp only [List.map_cons, List.map_nil]
          rw [hb, reply_closed ho']
          exact .last _
      | cons t rest =>
        rw [if_neg (by simp)]
        have := ih (l ++ [s].filter acc) _ n (by simp) (.inr ⟨b, hb⟩) (.inr hlen) ho'
          (fun x hx => hn x (by simp [hx])) (by simp only [List.length_cons] at hfu ⊢; omega)
        have e : l ++ List.filter acc (s :: t :: rest) = l ++ [s].filter acc ++ (t :: rest).filter acc := by
          rw [List.append_assoc, ← List.filter_append]; rfl
        rw [e]
        exact this
    intro l cur n _ hc hlt ho hn hfu
    have hst := start_small hL hlt
    simp only [List.length_cons] at hfu
    cases ha : acc s with
    | false =>
      obtain ⟨b, hb⟩ := start_cur hc
      refine fit l cur n hc ho hn (by omega) ⟨b, ?_⟩ ?_
      · rw [next_no ha, hb]; simp [ha]
      · rw [next_no ha]; exact hst
    | true =>
      by_cases hf : (start cur).length + width s < L - 3
      · obtain ⟨hb, hl⟩ := next_fits hc ha hf
        refine fit l cur n hc ho hn (by omega) ?_ (by omega)
        simpa [ha] using hb
      · have hw := (hn s (by simp) ha).2
        -- a message is sent and the set starts a new one
        obtain ⟨n, rfl⟩ : ∃ k, n = k + 1 := ⟨n - 1, by omega⟩
        rcases hc with ⟨rfl, rfl⟩ | ⟨b, hb⟩
        · exfalso
          have : start [] = header := rfl
          rw [this, header_len] at hf
          exact hf hw
        · have hb' := hb
          rw [List.map_cons, loop_some hL, if_pos (next_long ha (by omega) (by omega)), ← List.map_cons]
          have hs : (start []).length + width s < L - 3 := by
            have : start [] = header := rfl
            rw [this, header_len]
            exact hw
          obtain ⟨hb, hl⟩ := next_fits (acc := acc) (.inl ⟨rfl, rfl⟩) ha hs
          obtain ⟨h1, h2⟩ := fit [] [] n (.inl ⟨rfl, rfl⟩) (fun _ h => (by cases h)) hn (by omega)
            (by simpa [ha] using hb) (by omega)
          refine ⟨h1, ?_⟩
          rcases h2 with h2 | h2
          · left
            simp only [List.map_cons]
            rw [hb', reply_closed ho, List.map_append]
            rw [List.nil_append] at h2
            exact .more _ h2
          · right
            exact h2.cons rfl

/-! ## One message -/

theorem loop_one (hL : 20 < L) : ∀ (names : List SetRec) (l : List SetRec) (cur : Text) (n : Nat),
    names ≠ [] → Cur cur l → (∀ s ∈ l, Ordinary s) → (∀ s ∈ names, acc s = true → Ordinary s) →
    (start cur).length + ((names.filter acc).map width).sum + 2 < L - 3 → names.length ≤ n →
    ∃ t, dirLoop acc L n (names.map some) cur = ([⟨0, false, t⟩], true) ∧
      processReply ⟨0, false, t⟩ = some (.listing false ((l ++ names.filter acc).map shown)) := by
  intro names
  induction names with
  | nil => intro l cur n h; exact absurd rfl h
  | cons s rest ih =>
    intro l cur n _ hc ho hn hw hfu
    simp only [List.length_cons] at hfu
    obtain ⟨n, rfl⟩ : ∃ k, n = k + 1 := ⟨n - 1, by omega⟩
    have hnext : (∃ b, next acc L s cur = header ++ body b (l ++ [s].filter acc)) ∧
        (next acc L s cur).length + ((rest.filter acc).map width).sum + 2 < L - 3 := by
      cases ha : acc s with
      | false =>
        obtain ⟨b, hb⟩ := start_cur hc
        rw [next_no ha]
        refine ⟨⟨b, by rw [hb]; simp [ha]⟩, ?_⟩
        simpa [ha] using hw
      | true =>
        have hw' : (start cur).length + (width s + ((rest.filter acc).map width).sum) + 2 < L - 3 := by
          simpa [ha] using hw
        obtain ⟨hb, hl⟩ := next_fits (L := L) hc ha (by omega)
        exact ⟨by simpa [ha] using hb, by omega⟩
    obtain ⟨⟨b, hb⟩, hlen⟩ := hnext
    have ho' : ∀ t ∈ l ++ [s].filter acc, Ordinary t := by
      intro t ht
      rcases List.mem_append.mp ht with ht | ht
      · exact ho t ht
      · obtain ⟨h1, h2⟩ := List.mem_filter.mp ht
        rw [List.mem_singleton] at h1
        subst h1
        exact hn t (by simp) h2
    rw [List.map_cons, loop_some hL, if_neg (by omega)]
    cases rest with
    | nil =>
      simp only [List.filter_nil, List.map_nil, List.sum_nil] at hlen
      rw [List.map_nil, if_pos rfl, if_neg (by
        simp only [List.length_append, closing, List.length_cons, List.length_nil]; omega)]
      refine ⟨_, rfl, ?_⟩
      rw [hb]
      exact reply_closed ho'
    | cons t rest =>
      rw [if_neg (by simp)]
      have e : l ++ List.filter acc (s :: t :: rest) = l ++ [s].filter acc ++ (t :: rest).filter acc := by
        rw [List.append_assoc, ← List.filter_append]; rfl
      rw [e]
      refine ih _ _ n (by simp) (.inr ⟨b, hb⟩) ho' (fun x hx => hn x (by simp [hx])) ?_
        (by simp only [List.length_cons] at hfu ⊢; omega)
      rw [hb, start_header, ← hb]
      exact hlen

/-! ## Only readable sets are shown -/

theorem told_closing (more : Bool) : toldBy ⟨0, more, closing⟩ = [] := by
  have : JsonText.parse closing = none := by
    have : (JsonText.parse closing).isNone = true := by decide +kernel
    simpa using this
  simp [toldBy, processReply, this]

theorem told_enomem : toldBy ⟨ENOMEM, false, []⟩ = [] := rfl

theorem loop_sound (hL : 20 < L) : ∀ (n : Nat) (names : List (Option SetRec)) (l : List SetRec) (cur : Text),
    Cur cur l → (cur = [] ∨ cur.length < L - 3) → (∀ s ∈ l, Ordinary s) →
    (∀ s ∈ readable acc names, Ordinary s) →
    ∃ x : List SetRec, x.Sublist (l ++ readable acc names) ∧ (dirLoop acc L n names cur).1.flatMap toldBy = x.map shown := by
  intro n
  induction n with
  | zero => intro names l cur _ _ _ _; exact ⟨[], by simp, rfl⟩
  | succ n ih =>
    intro names l cur hc hlt ho hn
    cases names with
    | nil => exact ⟨[], by simp, rfl⟩
    | cons o rest =>
      cases o with
      | none => exact ih rest l cur hc hlt ho hn
      | some s =>
        have hst := start_small hL hlt
        have er : readable acc (some s :: rest) = [s].filter acc ++ readable acc rest := by
          simp only [readable, List.filterMap_cons, id, List.filter_cons, List.filter_nil]
          split <;> rfl
        have goon : (∃ b, next acc L s cur = header ++ body b (l ++ [s].filter acc)) →
            (next acc L s cur).length < L - 3 → ∃ x : List SetRec, x.Sublist (l ++ readable acc (some s :: rest)) ∧
              (dirLoop acc L (n + 1) (some s :: rest) cur).1.flatMap toldBy = x.map shown := by
          intro ⟨b, hb⟩ hlen
          have ho' : ∀ t ∈ l ++ [s].filter acc, Ordinary t := by
            intro t ht
            rcases List.mem_append.mp ht with ht | ht
            · exact ho t ht
            · exact hn t (by rw [er]; exact List.mem_append_left _ ht)
          rw [loop_some hL, if_neg (by omega)]
          split
          · split
            · exact ⟨[], by simp, by simp [told_enomem]⟩
            · refine ⟨l ++ [s].filter acc, ?_, ?_⟩
              · rw [er, ← List.append_assoc]
                exact List.sublist_append_left _ _
              · simp only [List.flatMap_cons, List.flatMap_nil, List.append_nil]
                rw [toldBy, hb, reply_closed ho']
          · obtain ⟨x, hx, hm⟩ := ih rest _ _ (.inr ⟨b, hb⟩) (.inr hlen) ho'
              (fun t ht => hn t (by rw [er]; exact List.mem_append_right _ ht))
            refine ⟨x, ?_, hm⟩
            rw [er, ← List.append_assoc]
            exact hx
        cases ha : acc s with
        | false =>
          obtain ⟨b, hb⟩ := start_cur hc
          exact goon ⟨b, by rw [next_no ha, hb]; simp [ha]⟩ (by rw [next_no ha]; exact hst)
        | true =>
          by_cases hf : (start cur).length + width s < L - 3
          · obtain ⟨hb, hl⟩ := next_fits hc ha hf
            exact goon (by simpa [ha] using hb) (by omega)
          · rw [loop_some hL, if_pos (next_long ha (by omega) (by omega))]
            obtain ⟨x, hx, hm⟩ := ih (some s :: rest) [] [] (.inl ⟨rfl, rfl⟩) (.inl rfl)
              (fun _ h => (by cases h)) hn
            rw [List.nil_append] at hx
            refine ⟨l ++ x, List.Sublist.append (List.Sublist.refl _) hx, ?_⟩
            simp only [List.flatMap_cons, hm, List.map_append]
            congr 1
            rcases hc with ⟨rfl, rfl⟩ | ⟨b, rfl⟩
            · exact told_closing true
            · rw [toldBy, reply_closed ho]

/-! ## What never ends -/

theorem loop_hang (hL : 20 < L) {s : SetRec} (ha : acc s = true) (hw : L - 3 ≤ 17 + width s) :
    ∀ (n : Nat) (names : List (Option SetRec)) (cur : Text), some s ∈ names →
    (cur = [] ∨ (17 ≤ cur.length ∧ cur.length < L - 3)) →
    (dirLoop acc L n names cur).2 = false ∧
      n ≤ (dirLoop acc L n names cur).1.length + names.length ∧ ∀ m ∈ (dirLoop acc L n names cur).1, m.more = true := by
  intro n
  induction n with
  | zero => intro names cur _ _; exact ⟨rfl, Nat.zero_le _, fun _ h => (by cases h)⟩
  | succ n ih =>
    intro names cur hm hlt
    cases names with
    | nil => cases hm
    | cons o rest =>
      cases o with
      | none =>
        have hm' : some s ∈ rest := by simpa using hm
        obtain ⟨h1, h2, h3⟩ := ih rest cur hm' hlt
        rw [dirLoop]
        exact ⟨h1, by simp only [List.length_cons]; omega, h3⟩
      | some t =>
        have hst := start_small hL (hlt.imp id And.right)
        have h17 : 17 ≤ (start cur).length := by
          unfold start
          split
          · rw [header_len]; omega
          · rename_i hcur
            rcases hlt with h | h
            · exact absurd h hcur
            · exact h.1
        rw [loop_some hL]
        split
        · obtain ⟨h1, h2, h3⟩ := ih (some t :: rest) [] hm (.inl rfl)
          refine ⟨h1, ?_, ?_⟩
          · simp only [List.length_cons] at h2 ⊢; omega
          · intro m hm
            rcases List.mem_cons.mp hm with rfl | hm
            · rfl
            · exact h3 m hm
        · rename_i hnl
          have hne : t ≠ s := by
            intro he
            subst he
            exact hnl (next_long ha (by omega) (by omega))
          have hm' : some s ∈ rest := by
            rcases List.mem_cons.mp hm with h | h
            · cases h; exact absurd rfl hne
            · exact h
          rw [if_neg (by intro h; rw [h] at hm'; cases hm')]
          have hnl' : (start cur).length ≤ (next acc L t cur).length := by
            unfold next
            split
            · simp
            · exact Nat.le_refl _
          obtain ⟨h1, h2, h3⟩ := ih rest (next acc L t cur) hm' (.inr ⟨by omega, by omega⟩)
          exact ⟨h1, by simp only [List.length_cons]; omega, h3⟩

theorem loop_lost (hL : 20 < L) : ∀ (n : Nat) (names : List (Option SetRec)) (cur : Text),
    names.getLast? = some none → ∀ m ∈ (dirLoop acc L n names cur).1, m.more = true := by
  intro n
  induction n with
  | zero => intro names cur _ m hm; cases hm
  | succ n ih =>
    intro names cur hl
    cases names with
    | nil => intro m hm; cases hm
    | cons o rest =>
      have hrest : rest ≠ [] → rest.getLast? = some none := by
        intro hne
        cases rest with
        | nil => exact absurd rfl hne
        | cons a r => simpa using hl
      cases o with
      | none =>
        rw [dirLoop]
        by_cases hr : rest = []
        · subst hr
          intro m hm
          cases n <;> cases hm
        · exact ih rest cur (hrest hr)
      | some t =>
        have hr : rest ≠ [] := by
          rintro rfl
          simp at hl
        rw [loop_some hL, if_neg hr]
        split
        · intro m hm
          rcases List.mem_cons.mp hm with rfl | hm
          · rfl
          · exact ih _ [] hl m hm
        · exact ih rest _ (hrest hr)

end Verif.Dir
