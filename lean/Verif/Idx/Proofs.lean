import Verif.Idx.Model

namespace Verif.Idx

theorem upd_self {β γ : Type} [DecidableEq β] (f : β → γ) (b : β) (c : γ) : upd f b c b = c := by
  simp [upd]
theorem upd_ne {β γ : Type} [DecidableEq β] (f : β → γ) {b x : β} (c : γ) (h : x ≠ b) :
    upd f b c x = f x := by simp [upd, h]

theorem find_nil (k : List Byte) : find .nil k = none := by unfold find; rfl
theorem find_empty (l : Layer) : find l [] = none := by cases l <;> (unfold find; rfl)

theorem find_cons {oc lc : Int} {obj : Byte → Option Nat} {next : Byte → Layer} (b : Byte) (k : List Byte) :
    find (.mk oc lc obj next) (b :: k) = if k.isEmpty then obj b else find (next b) k := by
  conv => lhs; unfold find

theorem find_new (k : List Byte) : find newLayer k = none := by
  cases k with
  | nil => rfl
  | cons b k =>
    unfold newLayer; rw [find_cons]
    split
    · rfl
    · exact find_nil k

/-- non-null -/
def NN (l : Layer) : Prop := l.isNil = false

theorem nn_new : NN newLayer := rfl

theorem addAt_nn {l : Layer} (h : NN l) (k : List Byte) (o : Nat) : NN (addAt l k o) := by
  cases l with
  | nil => cases h
  | mk oc lc obj next =>
    cases k with
    | nil => exact h
    | cons b k =>
      unfold addAt
      split
      · rfl
      · split <;> rfl

theorem find_addAt (o : Nat) : ∀ (k : List Byte) (l : Layer), NN l → k ≠ [] → ∀ q,
    find (addAt l k o) q = if q = k then some o else find l q := by
  intro k
  induction k with
  | nil => intro l _ h; exact absurd rfl h
  | cons b k ih =>
    intro l hl _ q
    cases l with
    | nil => cases hl
    | mk oc lc obj next =>
      cases q with
      | nil => rw [find_empty, find_empty]; simp
      | cons c q =>
        unfold addAt
        by_cases hk : k = []
        · subst hk
          simp only [List.isEmpty_nil, if_true]
          rw [find_cons, find_cons]
          by_cases hq : q = []
          · subst hq
            by_cases hc : c = b
            · subst hc; simp [upd]
            · simp [upd, hc]
          · simp [hq]
        · simp only [List.isEmpty_iff, hk, if_false]
          have sub : ∀ l', NN l' → (∀ q, find l' q = find (next b) q) →
              find (Layer.mk oc lc obj (upd next b (addAt l' k o))) (c :: q) =
                if c :: q = b :: k then some o else find (Layer.mk oc lc obj next) (c :: q) := by
            intro l' hl' hf
            rw [find_cons, find_cons]
            by_cases hq : q = []
            · subst hq; simp [Ne.symm hk]
            · simp only [List.isEmpty_iff, hq, if_false]
              by_cases hc : c = b
              · subst hc
                rw [upd_self, ih l' hl' hk q, hf]; simp
              · rw [upd_ne _ _ hc]; simp [hc]
          have eq1 : ∀ (lc' : Int) (n' : Byte → Layer), find (Layer.mk oc lc' obj n') (c :: q) =
              find (Layer.mk oc lc obj n') (c :: q) := by
            intro lc' n'; rw [find_cons, find_cons]
          split
          · rename_i hn
            rw [eq1]
            have hn' : next b = .nil := by
              cases h : next b with
              | nil => rfl
              | mk => rw [h] at hn; cases hn
            exact sub newLayer nn_new (fun q => by rw [find_new, hn', find_nil])
          · rename_i hn
            exact sub (next b) (by simpa [NN] using hn) (fun q => rfl)

theorem find_delAt : ∀ (k : List Byte) (l : Layer) (l' : Layer) (o : Option Nat),
    delAt l k = some (l', o) → o = find l k ∧ NN l' ∧
      ∀ q, find l' q = if q = k then none else find l q := by
  intro k
  induction k with
  | nil => intro l l' o h; cases l <;> (unfold delAt at h; cases h)
  | cons b k ih =>
    intro l l' o h
    cases l with
    | nil => unfold delAt at h; cases h
    | mk oc lc obj next =>
      unfold delAt at h
      by_cases hk : k = []
      · subst hk
        simp only [List.isEmpty_nil, if_true, Option.some.injEq, Prod.mk.injEq] at h
        obtain ⟨rfl, rfl⟩ := h
        refine ⟨by rw [find_cons]; simp, rfl, ?_⟩
        intro q
        cases q with
        | nil => rw [find_empty, find_empty]; simp
        | cons c q =>
          rw [find_cons, find_cons]
          by_cases hq : q = []
          · subst hq
            by_cases hc : c = b
            · subst hc; simp [upd]
            · simp [upd, hc]
          · simp [hq]
      · simp only [List.isEmpty_iff, hk, if_false] at h
        cases hd : delAt (next b) k with
        | none => rw [hd] at h; cases h
        | some r =>
          obtain ⟨l1, o1⟩ := r
          rw [hd] at h
          simp only [Option.some.injEq, Prod.mk.injEq] at h
          obtain ⟨rfl, rfl⟩ := h
          obtain ⟨e1, e2, e3⟩ := ih _ _ _ hd
          refine ⟨by rw [find_cons]; simp [hk, e1], rfl, ?_⟩
          intro q
          cases q with
          | nil => rw [find_empty, find_empty]; simp
          | cons c q =>
            rw [find_cons, find_cons]
            by_cases hq : q = []
            · subst hq; simp [Ne.symm hk]
            · simp only [List.isEmpty_iff, hq, if_false]
              by_cases hc : c = b
              · subst hc; rw [upd_self, e3]; simp
              · rw [upd_ne _ _ hc]; simp [hc]

theorem delAt_none : ∀ (k : List Byte) (l : Layer), delAt l k = none → find l k = none := by
  intro k
  induction k with
  | nil => intro l _; exact find_empty l
  | cons b k ih =>
    intro l h
    cases l with
    | nil => exact find_nil _
    | mk oc lc obj next =>
      unfold delAt at h
      rw [find_cons]
      by_cases hk : k = []
      · subst hk; simp at h
      · simp only [List.isEmpty_iff, hk, if_false] at h ⊢
        cases hd : delAt (next b) k with
        | none => exact ih _ hd
        | some r => rw [hd] at h; cases h

/-! ### layers are never purged: their counts include the child on the path -/

/-- number of children -/
def kids (next : Byte → Layer) : Int :=
  (((List.finRange 256).filter fun e => !(next e).isNil).length : Nat)

/-- the layer counts are right, all the way down -/
inductive Counted : Layer → Prop where
  | nil : Counted .nil
  | mk {oc lc obj next} : lc = kids next → (∀ b, Counted (next b)) → Counted (.mk oc lc obj next)

theorem kids_pos {next : Byte → Layer} {b : Byte} (h : (next b).isNil = false) : 0 < kids next := by
  unfold kids
  have : b ∈ (List.finRange 256).filter fun e => !(next e).isNil := by
    simp [List.mem_filter, h, List.mem_finRange]
  have := List.length_pos_of_mem this
  omega

theorem kids_congr {n1 n2 : Byte → Layer} (h : ∀ e, (n1 e).isNil = (n2 e).isNil) : kids n1 = kids n2 := by
  unfold kids
  congr 3
  funext e; rw [h e]

theorem kids_add {next : Byte → Layer} {b : Byte} {l : Layer} (h : (next b).isNil = true)
    (hl : l.isNil = false) : kids (upd next b l) = kids next + 1 := by
  unfold kids
  have key : ∀ (L : List Byte), L.Nodup →
      ((L.filter fun e => !(upd next b l e).isNil).length : Int) =
        ((L.filter fun e => !(next e).isNil).length : Int) + (if b ∈ L then 1 else 0) := by
    intro L
    induction L with
    | nil => intro _; simp
    | cons a L ih =>
      intro hn
      obtain ⟨h1, h2⟩ := List.nodup_cons.1 hn
      have ih := ih h2
      by_cases hab : a = b
      · subst hab
        simp only [h1, if_false] at ih
        simp only [List.filter_cons, upd_self, hl, h, List.mem_cons, true_or, if_true]
        simp
        omega
      · have hba : b ≠ a := Ne.symm hab
        rw [List.filter_cons, List.filter_cons, upd_ne _ _ hab]
        simp only [List.mem_cons, hba, false_or]
        cases hn : (next a).isNil with
        | true => simpa using ih
        | false =>
          simp only [Bool.not_false, if_true, List.length_cons]
          push_cast
          omega
  have := key (List.finRange 256) (List.nodup_finRange 256)
  rw [this]
  simp [List.mem_finRange]

theorem counted_new : Counted newLayer := by
  refine .mk ?_ (fun _ => .nil)
  unfold kids
  have : ((List.finRange 256).filter fun _ : Byte => !(Layer.nil).isNil) = [] := by
    apply List.filter_eq_nil_iff.2
    intro a _; simp [Layer.isNil]
  rw [this]; rfl

theorem counted_upd {next : Byte → Layer} {b : Byte} {l : Layer} (h : ∀ b, Counted (next b))
    (hl : Counted l) : ∀ c, Counted (upd next b l c) := by
  intro c
  by_cases hc : c = b
  · subst hc; rw [upd_self]; exact hl
  · rw [upd_ne _ _ hc]; exact h c

theorem counted_addAt (o : Nat) : ∀ (k : List Byte) (l : Layer), Counted l → Counted (addAt l k o) := by
  intro k
  induction k with
  | nil => intro l h; cases l <;> (unfold addAt; exact h)
  | cons b k ih =>
    intro l h
    cases h with
    | nil => exact .nil
    | mk hc hn =>
      unfold addAt
      split
      · exact .mk hc hn
      · split
        · rename_i hnil
          refine .mk ?_ (counted_upd hn (ih _ counted_new))
          rw [kids_add hnil (addAt_nn nn_new k o), hc]
        · rename_i hnil
          refine .mk ?_ (counted_upd hn (ih _ (hn b)))
          rw [hc]
          apply kids_congr
          intro e
          by_cases he : e = b
          · subst he
            rw [upd_self, addAt_nn (by simpa [NN] using hnil) k o]
            simpa using hnil
          · rw [upd_ne _ _ he]

theorem counted_delAt : ∀ (k : List Byte) (l l' : Layer) (o : Option Nat), Counted l →
    delAt l k = some (l', o) → Counted l' := by
  intro k
  induction k with
  | nil => intro l l' o _ h; cases l <;> (unfold delAt at h; cases h)
  | cons b k ih =>
    intro l l' o hl h
    cases hl with
    | nil => unfold delAt at h; cases h
    | mk hc hn =>
      unfold delAt at h
      split at h
      · simp only [Option.some.injEq, Prod.mk.injEq] at h
        obtain ⟨rfl, rfl⟩ := h
        exact .mk hc hn
      · rename_i oc lc obj next _
        cases hd : delAt (next b) k with
        | none => rw [hd] at h; cases h
        | some r =>
          obtain ⟨l1, o1⟩ := r
          rw [hd] at h
          simp only [Option.some.injEq, Prod.mk.injEq] at h
          obtain ⟨rfl, rfl⟩ := h
          refine .mk ?_ (counted_upd hn (ih _ _ _ (hn b) hd))
          rw [hc]
          apply kids_congr
          intro e
          by_cases he : e = b
          · subst he
            rw [upd_self, (find_delAt _ _ _ _ hd).2.1]
            cases hx : next e with
            | nil => rw [hx] at hd; cases k <;> (unfold delAt at hd; cases hd)
            | mk => rfl
          · rw [upd_ne _ _ he]

/-- every layer on the path of the key but the last exists: the path `delAt` has walked -/
def Path : Layer → List Byte → Prop
  | .nil, _ => False
  | .mk .., [] => True
  | .mk _ _ _ next, b :: k => k.isEmpty = true ∨ Path (next b) k

theorem path_delAt : ∀ (k : List Byte) (l l' : Layer) (o : Option Nat),
    delAt l k = some (l', o) → Path l' k := by
  intro k
  induction k with
  | nil => intro l l' o h; cases l <;> (unfold delAt at h; cases h)
  | cons b k ih =>
    intro l l' o h
    cases l with
    | nil => unfold delAt at h; cases h
    | mk oc lc obj next =>
      unfold delAt at h
      split at h
      · rename_i hk
        simp only [Option.some.injEq, Prod.mk.injEq] at h
        obtain ⟨rfl, rfl⟩ := h
        unfold Path; exact .inl hk
      · cases hd : delAt (next b) k with
        | none => rw [hd] at h; cases h
        | some r =>
          obtain ⟨l1, o1⟩ := r
          rw [hd] at h
          simp only [Option.some.injEq, Prod.mk.injEq] at h
          obtain ⟨rfl, rfl⟩ := h
          unfold Path; right
          rw [upd_self]; exact ih _ _ _ hd

theorem path_nn {l : Layer} {k : List Byte} (h : Path l k) : l.isNil = false := by
  cases l with
  | nil => unfold Path at h; exact h.elim
  | mk => rfl

/-- which bytes `purge_layer` asserts not to be 255 -/
def asserted (after : Byte) : List Byte → List Byte
  | [] => [after]
  | [b] => [b]
  | [b, _] => [b]
  | b :: k => b :: asserted after k

theorem upd_same {β γ : Type} [DecidableEq β] (f : β → γ) (b : β) : upd f b (f b) = f := by
  funext x; unfold upd; split
  · rename_i h; rw [h]
  · rfl

theorem purge_id (after : Byte) : ∀ (k : List Byte) (l : Layer), Counted l → (k = [] ∨ Path l k) →
    (255 ∉ asserted after k → purgeLayer after l k = some (l, false)) ∧
    (255 ∈ asserted after k → purgeLayer after l k = none) := by
  intro k
  induction k with
  | nil =>
    intro l _ _
    unfold purgeLayer asserted
    constructor
    · intro h; simp at h; simp [Ne.symm h]
    · intro h; simp at h; simp [← h]
  | cons b k ih =>
    intro l hc hp
    have hp : Path l (b :: k) := by rcases hp with h | h; cases h; exact h
    match k, ih, hp with
    | [], _, _ =>
      unfold purgeLayer asserted
      by_cases hb : b = 255
      · simp [hb]
      · simp [hb, Ne.symm hb]
    | [c], _, hp =>
      unfold purgeLayer asserted
      by_cases hb : b = 255
      · simp [hb]
      · cases l with
        | nil => unfold Path at hp; exact hp.elim
        | mk oc lc obj next =>
          obtain ⟨h1, h2⟩ : lc = kids next ∧ ∀ b, Counted (next b) := by
            cases hc with | mk h1 h2 => exact ⟨h1, h2⟩
          unfold Path at hp
          simp only [List.isEmpty_cons, Bool.false_eq_true, false_or] at hp
          have := kids_pos (path_nn hp)
          have hlc : lc ≠ 0 := by omega
          simp [hb, Ne.symm hb, hlc]
    | c :: d :: k', ih, hp =>
      have ha : asserted after (b :: c :: d :: k') = b :: asserted after (c :: d :: k') := by
        conv => lhs; unfold asserted
      rw [ha]
      unfold purgeLayer
      by_cases hb : b = 255
      · simp [hb]
      · cases l with
        | nil => unfold Path at hp; exact hp.elim
        | mk oc lc obj next =>
          obtain ⟨h1, h2⟩ : lc = kids next ∧ ∀ b, Counted (next b) := by
            cases hc with | mk h1 h2 => exact ⟨h1, h2⟩
          unfold Path at hp
          simp only [List.isEmpty_cons, Bool.false_eq_true, false_or] at hp
          obtain ⟨i1, i2⟩ := ih (next b) (h2 b) (.inr hp)
          have hnn := path_nn hp
          simp only [hb, if_false, hnn, Bool.false_eq_true, List.mem_cons, Ne.symm hb, false_or]
          constructor
          · intro h
            rw [i1 h]
            simp only [upd_same]
          · intro h
            rw [i2 h]

theorem purgeLayers_id (after : Byte) {t : Layer} (hc : Counted t) {b : Byte} {k : List Byte}
    (hp : Path t (b :: k)) :
    (255 ∉ asserted after k → purgeLayers after t (b :: k) = some t) ∧
    (255 ∈ asserted after k → purgeLayers after t (b :: k) = none) := by
  cases hc with
  | nil => unfold Path at hp; exact hp.elim
  | mk h1 h2 =>
    rename_i oc lc obj next
    unfold Path at hp
    have hp' : k = [] ∨ Path (next b) k := by simpa using hp
    obtain ⟨i1, i2⟩ := purge_id after k (next b) (h2 b) hp'
    unfold purgeLayers
    constructor
    · intro h; simp only [i1 h, upd_same]
    · intro h; simp only [i2 h]

/-! ### traversal -/

/-- the key/object pairs of a layer, in traversal order -/
def entries : Layer → List (List Byte × Nat)
  | .nil => []
  | .mk _ _ obj next =>
    (List.finRange 256).flatMap fun e =>
      (obj e).toList.map (fun o => ([e], o)) ++ (entries (next e)).map (fun p => (e :: p.1, p.2))

theorem entries_snd : ∀ l, (entries l).map Prod.snd = traverse l := by
  intro l
  induction l with
  | nil => rfl
  | mk oc lc obj next ih =>
    unfold entries traverse
    rw [List.map_flatMap]
    congr 1
    funext e
    rw [List.map_append, List.map_map, List.map_map, ← ih e]
    congr 1
    cases obj e <;> rfl

theorem entries_ne : ∀ l, ∀ p ∈ entries l, p.1 ≠ [] := by
  intro l
  cases l with
  | nil => intro p hp; unfold entries at hp; cases hp
  | mk oc lc obj next =>
    intro p hp
    unfold entries at hp
    rw [List.mem_flatMap] at hp
    obtain ⟨e, _, hp⟩ := hp
    rcases List.mem_append.1 hp with h | h
    · obtain ⟨o, _, rfl⟩ := List.mem_map.1 h; simp
    · obtain ⟨q, _, rfl⟩ := List.mem_map.1 h; simp

theorem mem_entries : ∀ l k o, (k, o) ∈ entries l ↔ find l k = some o := by
  intro l
  induction l with
  | nil => intro k o; rw [find_nil]; unfold entries; simp
  | mk oc lc obj next ih =>
    intro k o
    cases k with
    | nil =>
      rw [find_empty]
      constructor
      · intro h; exact absurd rfl (entries_ne _ _ h)
      · intro h; cases h
    | cons b k =>
      rw [find_cons]
      unfold entries
      rw [List.mem_flatMap]
      constructor
      · rintro ⟨e, _, hp⟩
        rcases List.mem_append.1 hp with h | h
        · obtain ⟨o', ho', he⟩ := List.mem_map.1 h
          simp only [Prod.mk.injEq, List.cons.injEq] at he
          obtain ⟨⟨rfl, rfl⟩, rfl⟩ := he
          simpa using ho'
        · obtain ⟨q, hq, he⟩ := List.mem_map.1 h
          simp only [Prod.mk.injEq, List.cons.injEq] at he
          obtain ⟨⟨rfl, rfl⟩, rfl⟩ := he
          have hne := entries_ne _ _ hq
          simp only [List.isEmpty_iff, hne, if_false]
          exact (ih e q.1 q.2).1 hq
      · intro h
        refine ⟨b, List.mem_finRange b, ?_⟩
        by_cases hk : k = []
        · subst hk
          simp only [List.isEmpty_nil, if_true] at h
          apply List.mem_append_left
          exact List.mem_map.2 ⟨o, by simp [h], rfl⟩
        · simp only [List.isEmpty_iff, hk, if_false] at h
          apply List.mem_append_right
          exact List.mem_map.2 ⟨(k, o), (ih b k o).2 h, rfl⟩

theorem entries_nodup : ∀ l, (entries l).Nodup := by
  intro l
  induction l with
  | nil => unfold entries; exact List.nodup_nil
  | mk oc lc obj next ih =>
    unfold entries
    rw [List.nodup_iff_pairwise_ne, List.pairwise_flatMap]
    constructor
    · intro e _
      rw [List.pairwise_append]
      refine ⟨?_, ?_, ?_⟩
      · cases obj e <;> simp
      · rw [List.pairwise_map]
        apply (List.nodup_iff_pairwise_ne.1 (ih e)).imp
        intro a b hab he
        apply hab
        simp only [Prod.mk.injEq, List.cons.injEq, true_and] at he
        exact Prod.ext he.1 he.2
      · intro a ha b hb he
        obtain ⟨o, _, rfl⟩ := List.mem_map.1 ha
        obtain ⟨q, hq, rfl⟩ := List.mem_map.1 hb
        simp only [Prod.mk.injEq, List.cons.injEq, true_and] at he
        exact entries_ne _ _ hq he.1.symm
    · apply (List.nodup_iff_pairwise_ne.1 (List.nodup_finRange 256)).imp
      intro e1 e2 hne x hx y hy he
      subst he
      have h1 : ∀ e, x ∈ (obj e).toList.map (fun o => ([e], o)) ++
          (entries (next e)).map (fun p => (e :: p.1, p.2)) → x.1.head? = some e := by
        intro e h
        rcases List.mem_append.1 h with h | h
        · obtain ⟨o, _, rfl⟩ := List.mem_map.1 h; rfl
        · obtain ⟨q, _, rfl⟩ := List.mem_map.1 h; rfl
      have a1 := h1 e1 hx
      have a2 := h1 e2 hy
      rw [a1] at a2
      exact hne (Option.some.inj a2)

end Verif.Idx
