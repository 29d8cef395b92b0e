import Verif.Htbl.Model
import Verif.Common.AList

/-!
# Properties of the hash table and the string map (C11)
-/

namespace Verif.Htbl

variable {κ : Type} [DecidableEq κ]

/-- Histories of a table of depth at least 1: `live` lists the entries inserted and not deleted, newest
first.  An entry is inserted only while it is not on the table and deleted only while it is. -/
inductive Reach (hash : κ → Nat) : Tbl κ → List (Ent κ) → Prop where
  | alloc {d : Nat} : 0 < d → Reach hash (alloc d) []
  | ins {t live e} : Reach hash t live → e ∉ live → Reach hash (ins hash t e) (e :: live)
  | del {t live e} : Reach hash t live → e ∈ live → Reach hash (del hash t e) (live.erase e)

/-- each bucket is the part of `live` that hashes there -/
structure Ok (hash : κ → Nat) (t : Tbl κ) (live : List (Ent κ)) : Prop where
  pos : 0 < t.depth
  bucket : ∀ h, h < t.depth → t.bucket h = live.filter (fun e => hash e.key % t.depth = h)
  count : t.count = live.length
  nodup : live.Nodup

theorem filter_erase {α : Type} [DecidableEq α] {p : α → Bool} {a : α} :
    ∀ {l : List α}, l.Nodup → (l.erase a).filter p = if p a then (l.filter p).erase a else l.filter p := by
  intro l hn
  have hn' : (l.filter p).Nodup := hn.filter p
  rw [hn.erase_eq_filter, hn'.erase_eq_filter, List.filter_filter, List.filter_filter]
  split
  · congr 1; funext x; rw [Bool.and_comm]
  · rename_i hp
    apply List.filter_congr
    intro x _
    by_cases hx : x = a
    · subst hx; simp [hp]
    · simp [hx]

theorem reach_ok {hash : κ → Nat} {t : Tbl κ} {live : List (Ent κ)} (h : Reach hash t live) :
    Ok hash t live := by
  induction h with
  | alloc hd => exact ⟨hd, fun h _ => rfl, rfl, List.nodup_nil⟩
  | ins _ hn ih =>
    rename_i t live e _
    refine ⟨ih.pos, ?_, ?_, List.nodup_cons.2 ⟨hn, ih.nodup⟩⟩
    · intro h hh
      have hh' : h < t.depth := hh
      show setBucket t (hash e.key % t.depth) (e :: t.bucket (hash e.key % t.depth)) h =
        (e :: live).filter (fun x => hash x.key % t.depth = h)
      unfold setBucket
      rw [List.filter_cons]
      have hlt := Nat.mod_lt (hash e.key) ih.pos
      by_cases heq : h = hash e.key % t.depth
      · subst heq
        simp only [if_true]
        rw [ih.bucket _ hlt]
        simp
      · have : ¬ (hash e.key % t.depth = h) := fun hc => heq hc.symm
        simp only [heq, if_false]
        rw [ih.bucket h hh']
        simp [this]
    · show t.count + 1 = _
      rw [ih.count]; simp
  | del _ hm ih =>
    rename_i t live e _
    refine ⟨ih.pos, ?_, ?_, ih.nodup.erase _⟩
    · intro h hh
      have hh' : h < t.depth := hh
      show setBucket t (hash e.key % t.depth) ((t.bucket (hash e.key % t.depth)).erase e) h =
        (live.erase e).filter (fun x => hash x.key % t.depth = h)
      unfold setBucket
      rw [filter_erase ih.nodup]
      have hlt := Nat.mod_lt (hash e.key) ih.pos
      by_cases heq : h = hash e.key % t.depth
      · subst heq
        simp only [if_true]
        rw [ih.bucket _ hlt]
        simp
      · have : ¬ (hash e.key % t.depth = h) := fun hc => heq hc.symm
        simp only [heq, if_false]
        rw [ih.bucket h hh']
        simp [this]
    · show t.count - 1 = _
      rw [ih.count, List.length_erase_of_mem hm]
      have := List.length_pos_of_mem hm
      omega

/-- in general: the newest entry of the key's bucket whose key compares equal -/
theorem find_bucket {hash : κ → Nat} {t : Tbl κ} {live : List (Ent κ)} (h : Reach hash t live)
    (cmp : κ → κ → Bool) (k : κ) : find hash cmp t k =
      live.find? (fun e => cmp e.key k && (hash e.key % t.depth = hash k % t.depth)) := by
  have hok := reach_ok h
  unfold find
  rw [hok.bucket _ (Nat.mod_lt _ hok.pos), List.find?_filter]
  congr 1
  funext e
  rw [Bool.and_comm]
  cases cmp e.key k <;> simp

/-- C11: with a comparison that holds exactly for equal keys, `htbl_find` returns the newest live entry with
that key, and nothing exactly when there is none, whatever the hash function and the table size. -/
theorem htbl_find_correct {hash : κ → Nat} {t : Tbl κ} {live : List (Ent κ)} (h : Reach hash t live)
    {cmp : κ → κ → Bool} (hc : ∀ a b, cmp a b = true ↔ a = b) (k : κ) :
    find hash cmp t k = live.find? (fun e => e.key = k) := by
  rw [find_bucket h]
  congr 1
  funext e
  have := hc e.key k
  by_cases hk : e.key = k
  · subst hk; simp [this.2 rfl]
  · have : cmp e.key k = false := by
      cases hb : cmp e.key k with
      | false => rfl
      | true => exact absurd ((hc _ _).1 hb) hk
    simp [this, hk]

/-- C11: the entry count is the number of live entries, and `htbl_empty` tells whether it is zero. -/
theorem htbl_count_correct {hash : κ → Nat} {t : Tbl κ} {live : List (Ent κ)} (h : Reach hash t live) :
    t.count = live.length ∧ (isEmpty t = true ↔ live = []) := by
  have hok := reach_ok h
  refine ⟨hok.count, ?_⟩
  unfold isEmpty
  rw [hok.count]
  cases live <;> simp
  omega

/-- C11: inserting or deleting an entry does not change what any other key finds. -/
theorem htbl_other_keys {hash : κ → Nat} {t : Tbl κ} {live : List (Ent κ)} (h : Reach hash t live)
    {cmp : κ → κ → Bool} (hc : ∀ a b, cmp a b = true ↔ a = b) {e : Ent κ} {k : κ} (hk : e.key ≠ k) :
    (e ∉ live → find hash cmp (ins hash t e) k = find hash cmp t k) ∧
    (e ∈ live → find hash cmp (del hash t e) k = find hash cmp t k) := by
  constructor
  · intro hn
    rw [htbl_find_correct (.ins h hn) hc, htbl_find_correct h hc, List.find?_cons]
    simp [hk]
  · intro hm
    rw [htbl_find_correct (.del h hm) hc, htbl_find_correct h hc, (reach_ok h).nodup.erase_eq_filter,
      List.find?_filter]
    congr 1
    funext x
    by_cases hx : x = e
    · subst hx; simp [hk]
    · simp [hx]

/-! ### iteration -/

/-- the entries in bucket order -/
def flat (t : Tbl κ) : List (Ent κ) := (List.range t.depth).flatMap t.bucket

omit [DecidableEq κ] in
theorem firstFrom_eq (t : Tbl κ) : ∀ n h, firstFrom t n h = ((List.range' h n).flatMap t.bucket).head? := by
  intro n
  induction n with
  | zero => intro h; rfl
  | succ n ih =>
    intro h
    unfold firstFrom
    rw [List.range'_succ, List.flatMap_cons]
    cases hb : t.bucket h with
    | nil => simp [ih]
    | cons a l => simp

theorem listNext_append {A B : List (Ent κ)} {e : Ent κ} (h : e ∉ A) :
    listNext (A ++ e :: B) e = B.head? := by
  induction A with
  | nil => simp [listNext]
  | cons a A ih =>
    simp only [List.mem_cons, not_or] at h
    rw [List.cons_append]
    unfold listNext
    rw [if_neg (fun hc => h.1 hc.symm)]
    exact ih h.2

theorem flat_mem {hash : κ → Nat} {t : Tbl κ} {live : List (Ent κ)} (h : Reach hash t live) (e : Ent κ) :
    e ∈ flat t ↔ e ∈ live := by
  have hok := reach_ok h
  unfold flat
  rw [List.mem_flatMap]
  constructor
  · rintro ⟨b, hb, he⟩
    rw [hok.bucket b (List.mem_range.1 hb)] at he
    exact (List.mem_filter.1 he).1
  · intro he
    refine ⟨hash e.key % t.depth, List.mem_range.2 (Nat.mod_lt _ hok.pos), ?_⟩
    rw [hok.bucket _ (Nat.mod_lt _ hok.pos)]
    exact List.mem_filter.2 ⟨he, by simp⟩

theorem flat_nodup {hash : κ → Nat} {t : Tbl κ} {live : List (Ent κ)} (h : Reach hash t live) :
    (flat t).Nodup := by
  have hok := reach_ok h
  unfold flat
  rw [List.nodup_iff_pairwise_ne, List.pairwise_flatMap]
  constructor
  · intro b hb
    rw [hok.bucket b (List.mem_range.1 hb)]
    exact List.nodup_iff_pairwise_ne.1 (hok.nodup.filter _)
  · apply List.Pairwise.imp_of_mem _ (List.nodup_iff_pairwise_ne.1 List.nodup_range)
    intro a b ha hb hab x hx y hy he
    subst he
    rw [hok.bucket a (List.mem_range.1 ha)] at hx
    rw [hok.bucket b (List.mem_range.1 hb)] at hy
    have h1 := (List.mem_filter.1 hx).2
    have h2 := (List.mem_filter.1 hy).2
    simp at h1 h2
    exact hab (h1.symm.trans h2)

/-- C11: iterating with `htbl_first` and `htbl_next` walks a list that contains every live entry exactly
once: `htbl_first` is its head, `htbl_next` of an entry is the one that follows, and there is none after
the last. -/
theorem htbl_iteration_correct {hash : κ → Nat} {t : Tbl κ} {live : List (Ent κ)} (h : Reach hash t live) :
    ∃ l : List (Ent κ), l.Perm live ∧ first t = l.head? ∧
      ∀ A e B, l = A ++ e :: B → next hash t e = B.head? := by
  have hok := reach_ok h
  have hp : (flat t).Perm live :=
    (List.perm_ext_iff_of_nodup (flat_nodup h) hok.nodup).2 (flat_mem h)
  refine ⟨flat t, hp, ?_, ?_⟩
  · unfold first flat
    rw [firstFrom_eq, List.range_eq_range']
  · intro A e B he
    have heL : e ∈ live := (flat_mem h e).1 (by rw [he]; simp)
    have hb := Nat.mod_lt (hash e.key) hok.pos
    generalize hbe : hash e.key % t.depth = b at hb
    -- split the buckets at b
    have hlen : b + (1 + (t.depth - (b + 1))) - (b + 1) = t.depth - (b + 1) := by omega
    have hsplit : flat t = (List.range' 0 b).flatMap t.bucket ++
        (t.bucket b ++ (List.range' (b + 1) (t.depth - (b + 1))).flatMap t.bucket) := by
      unfold flat
      rw [List.range_eq_range', show t.depth = b + (1 + (t.depth - (b + 1))) by omega,
        ← List.range'_append_1, List.flatMap_append]
      congr 1
      rw [← List.range'_append_1, List.flatMap_append]
      simp [hlen]
    have hin : e ∈ t.bucket b := by
      rw [hok.bucket b hb]; exact List.mem_filter.2 ⟨heL, by simp [hbe]⟩
    obtain ⟨C, D, hCD⟩ := List.append_of_mem hin
    have hnd := flat_nodup h
    have hflat2 : flat t = ((List.range' 0 b).flatMap t.bucket ++ C) ++ e ::
        (D ++ (List.range' (b + 1) (t.depth - (b + 1))).flatMap t.bucket) := by
      rw [hsplit, hCD]; simp
    have uniq : ∀ {A A' B B' : List (Ent κ)}, A ++ e :: B = A' ++ e :: B' → (A ++ e :: B).Nodup →
        A = A' ∧ B = B' := by
      intro A
      induction A with
      | nil =>
        intro A' B B' h hn
        cases A' with
        | nil => simp at h; exact ⟨rfl, h⟩
        | cons a A' =>
          simp at h
          obtain ⟨rfl, rfl⟩ := h
          simp at hn
      | cons a A ih =>
        intro A' B B' h hn
        cases A' with
        | nil =>
          simp at h
          obtain ⟨rfl, rfl⟩ := h
          simp at hn
        | cons a' A' =>
          simp only [List.cons_append, List.cons.injEq] at h
          obtain ⟨rfl, h⟩ := h
          rw [List.cons_append, List.nodup_cons] at hn
          obtain ⟨h1, h2⟩ := ih h hn.2
          exact ⟨by rw [h1], h2⟩
    obtain ⟨hA, hB⟩ := uniq (he.symm.trans hflat2) (by rw [← he]; exact hnd)
    have hC : e ∉ C := by
      intro hc
      rw [hflat2] at hnd
      have := (List.nodup_append.1 hnd).2.2
      exact this e (List.mem_append_right _ hc) e List.mem_cons_self rfl
    unfold next
    simp only [hbe]
    rw [hCD, listNext_append hC, hB, firstFrom_eq]
    cases D with
    | nil => simp
    | cons d D => simp

/-! ### `str_map` -/

/-- Histories of a string map of size at least 1, with the map they should produce. -/
inductive SReach (hash : κ → Nat) : SMap κ → List (κ × Nat) → Prop where
  | create {n : Nat} : 0 < n → SReach hash (smCreate n) []
  | insert {m s k v} : SReach hash m s → (smInsert hash m k v).2 = .ok →
      SReach hash (smInsert hash m k v).1 ((k, v) :: s)
  | insertFail {m s k v} : SReach hash m s → (smInsert hash m k v).2 ≠ .ok →
      SReach hash (smInsert hash m k v).1 s
  | remove {m s k} : SReach hash m s → SReach hash (smRemove hash m k).1 (alDel s k)

structure SOk (hash : κ → Nat) (m : SMap κ) (s : List (κ × Nat)) : Prop where
  pos : 0 < m.size
  bucket : ∀ h, h < m.size → m.bucket h = s.filter (fun p => hash p.1 % m.size = h)
  keys : (s.map Prod.fst).Nodup

theorem sok_any {hash : κ → Nat} {m : SMap κ} {s : List (κ × Nat)} (h : SOk hash m s) (k : κ) :
    (m.bucket (hash k % m.size)).any (fun p => p.1 = k) = true ↔ alGet s k ≠ none := by
  rw [h.bucket _ (Nat.mod_lt _ h.pos), List.any_eq_true]
  rw [ne_eq, alGet_none_iff]
  constructor
  · rintro ⟨p, hp, he⟩ hc
    exact hc p (List.mem_filter.1 hp).1 (by simpa using he)
  · intro hc
    apply Classical.byContradiction
    intro hn
    apply hc
    intro p hp he
    exact hn ⟨p, List.mem_filter.2 ⟨hp, by simp [he]⟩, by simp [he]⟩

theorem dropFirst_eq (k : κ) : ∀ (l : List (κ × Nat)), (l.map Prod.fst).Nodup →
    dropFirst k l = l.filter (fun p => p.1 ≠ k) := by
  intro l
  induction l with
  | nil => intro _; rfl
  | cons p l ih =>
    intro hn
    rw [List.map_cons, List.nodup_cons] at hn
    unfold dropFirst
    rw [List.filter_cons]
    by_cases h : p.1 = k
    · simp only [h, if_true, ne_eq, not_true_eq_false, decide_false, Bool.false_eq_true, if_false]
      symm
      apply List.filter_eq_self.2
      intro q hq
      have : q.1 ≠ k := by
        intro hc
        exact hn.1 (List.mem_map.2 ⟨q, hq, by rw [hc, h]⟩)
      simp [this]
    · rw [if_neg h, ih hn.2]
      simp [h]

theorem sreach_ok {hash : κ → Nat} {m : SMap κ} {s : List (κ × Nat)} (h : SReach hash m s) :
    SOk hash m s := by
  induction h with
  | create hn => exact ⟨hn, fun h _ => rfl, List.nodup_nil⟩
  | insert _ hok ih =>
    rename_i m s k v _
    unfold smInsert at hok ⊢
    simp only at hok ⊢
    split at hok
    · cases hok
    · rename_i hany
      rw [if_neg hany]
      have hfresh : alGet s k = none := by
        apply Classical.byContradiction
        intro hc; exact hany ((sok_any ih k).2 hc)
      refine ⟨ih.pos, ?_, ?_⟩
      · intro h hh
        have hh' : h < m.size := hh
        show (if h = hash k % m.size then _ else _) = List.filter _ _
        rw [List.filter_cons]
        by_cases heq : h = hash k % m.size
        · subst heq
          simp only [if_true, decide_true]
          rw [ih.bucket _ (Nat.mod_lt _ ih.pos)]
        · have : ¬ (hash k % m.size = h) := fun hc => heq hc.symm
          simp only [heq, if_false, this, decide_false, Bool.false_eq_true]
          exact ih.bucket h hh'
      · rw [List.map_cons, List.nodup_cons]
        refine ⟨?_, ih.keys⟩
        intro hm
        obtain ⟨p, hp, he⟩ := List.mem_map.1 hm
        exact alGet_none_iff.1 hfresh p hp he
  | insertFail _ hf ih =>
    rename_i m s k v _
    unfold smInsert at hf ⊢
    simp only at hf ⊢
    split at hf
    · rename_i hany; rw [if_pos hany]; exact ih
    · exact absurd rfl hf
  | remove _ ih =>
    rename_i m s k _
    unfold smRemove
    simp only
    split
    · refine ⟨ih.pos, ?_, alDel_keys_nodup ih.keys k⟩
      intro h hh
      have hh' : h < m.size := hh
      show (if h = hash k % m.size then _ else _) = List.filter _ _
      unfold alDel
      rw [List.filter_filter]
      by_cases heq : h = hash k % m.size
      · subst heq
        simp only [if_true]
        rw [ih.bucket _ (Nat.mod_lt _ ih.pos), dropFirst_eq, List.filter_filter]
        · apply List.filter_congr
          intro p _; rw [Bool.and_comm]
        · exact ih.keys.sublist (List.Sublist.map _ List.filter_sublist)
      · simp only [heq, if_false]
        rw [ih.bucket h hh']
        apply List.filter_congr
        intro p _
        by_cases hpk : p.1 = k
        · have : ¬ (hash k % m.size = h) := fun hc => heq hc.symm
          simp [hpk, this]
        · simp [hpk]
    · rename_i hany
      have hfresh : alGet s k = none := by
        apply Classical.byContradiction
        intro hc; exact hany ((sok_any ih k).2 hc)
      have : alDel s k = s := by
        apply List.filter_eq_self.2
        intro p hp
        simpa using alGet_none_iff.1 hfresh p hp
      rw [this]; exact ih

/-- C11: `str_map_get` returns what the map holds for the key, `ENOENT` when it holds nothing. -/
theorem str_map_get_correct {hash : κ → Nat} {m : SMap κ} {s : List (κ × Nat)} (h : SReach hash m s) (k : κ) :
    smGet hash m k = alGet s k := by
  have hok := sreach_ok h
  unfold smGet alGet
  rw [hok.bucket _ (Nat.mod_lt _ hok.pos), List.find?_filter]
  congr 2
  funext p
  by_cases hp : p.1 = k
  · simp [hp]
  · simp [hp]

/-- C11: `str_map_insert` answers `EEXIST` exactly when the key is present and then changes nothing; otherwise
the key maps to the new value and no other key changes. -/
theorem str_map_insert_result {hash : κ → Nat} {m : SMap κ} {s : List (κ × Nat)} (h : SReach hash m s)
    (k : κ) (v : Nat) :
    ((smInsert hash m k v).2 = .eexist ↔ smGet hash m k ≠ none) ∧
    ((smInsert hash m k v).2 = .eexist → (smInsert hash m k v).1 = m) ∧
    ((smInsert hash m k v).2 ≠ .eexist → ∀ q,
      smGet hash (smInsert hash m k v).1 q = if q = k then some v else smGet hash m q) := by
  have hok := sreach_ok h
  have hany := sok_any hok k
  have hg := str_map_get_correct h
  refine ⟨?_, ?_, ?_⟩
  · rw [hg, ← hany]; unfold smInsert; simp only; split <;> simp_all
  · unfold smInsert; simp only; split <;> simp
  · intro hne q
    have hrc : (smInsert hash m k v).2 = .ok := by
      unfold smInsert at hne ⊢; simp only at hne ⊢; split at hne
      · exact absurd rfl hne
      · rename_i hn; rw [if_neg hn]
    rw [str_map_get_correct (.insert h hrc), alGet_cons, hg]

/-- C11: `str_map_remove` answers `ENOENT` exactly when the key is absent; afterwards the key is absent and
no other key has changed. -/
theorem str_map_remove_result {hash : κ → Nat} {m : SMap κ} {s : List (κ × Nat)} (h : SReach hash m s)
    (k : κ) :
    ((smRemove hash m k).2 = .enoent ↔ smGet hash m k = none) ∧
    (∀ q, smGet hash (smRemove hash m k).1 q = if q = k then none else smGet hash m q) := by
  have hok := sreach_ok h
  have hany := sok_any hok k
  have hg := str_map_get_correct h
  constructor
  · rw [hg]
    unfold smRemove; simp only
    split
    · rename_i hh; have := hany.1 hh; simp [this]
    · rename_i hh
      have : alGet s k = none := by
        apply Classical.byContradiction
        intro hc; exact hh (hany.2 hc)
      simp [this]
  · intro q
    rw [str_map_get_correct (.remove h), alGet_del, hg]

/-! ### non-vacuity: colliding keys in a table of depth 2 -/

example : ∃ t, Reach (fun k : Nat => k) t [⟨3, 6⟩, ⟨2, 4⟩, ⟨1, 4⟩] ∧
    find (fun k => k) (fun a b => a = b) t 4 = some ⟨2, 4⟩ ∧ first t = some ⟨3, 6⟩ := by
  refine ⟨_, .ins (.ins (.ins (.alloc (d := 2) (by decide)) (by simp)) (by decide)) (by decide), ?_, ?_⟩ <;>
    decide
example : ∃ m, SReach (fun k : Nat => k) m [(6, 10)] ∧ smGet (fun k => k) m 6 = some 10 ∧
    smGet (fun k => k) m 4 = none := by
  refine ⟨_, .remove (k := 4) (.insert (k := 6) (v := 10) (.insert (k := 4) (v := 9)
    (.create (n := 2) (by decide)) (by decide)) (by decide)), ?_, ?_⟩ <;> decide

end Verif.Htbl
