import Verif.LList.Spec

/-!
# Invariant of list metrics
-/

namespace Verif.LList

/-! ## linked segments -/

/-- first element, or a default -/
def hdOr : List Nat → Nat → Nat
  | [], n => n
  | x :: _, _ => x

/-- last element, or a default -/
def lastOr : Nat → List Nat → Nat
  | p, [] => p
  | _, x :: xs => lastOr x xs

/-- the entries `l` are linked in order, after `p` and before `n` -/
def Seg (mem : Nat → Option Entry) : Nat → List Nat → Nat → Prop
  | _, [], _ => True
  | p, x :: xs, n => (∃ e, mem x = some e ∧ e.prev = p ∧ e.next = hdOr xs n) ∧ Seg mem x xs n

theorem hdOr_append (a b : List Nat) (n : Nat) : hdOr (a ++ b) n = hdOr a (hdOr b n) := by
  cases a <;> rfl

theorem lastOr_append (p : Nat) (a b : List Nat) : lastOr p (a ++ b) = lastOr (lastOr p a) b := by
  induction a generalizing p with
  | nil => rfl
  | cons x a ih => exact ih x

theorem lastOr_mem (p : Nat) : ∀ a : List Nat, a ≠ [] → lastOr p a ∈ a := by
  intro a
  induction a generalizing p with
  | nil => intro h; exact absurd rfl h
  | cons x a ih =>
    intro _
    cases a with
    | nil => exact List.mem_cons_self ..
    | cons y a => exact List.mem_cons_of_mem _ (ih x (List.cons_ne_nil _ _))

theorem hdOr_mem (n : Nat) : ∀ a : List Nat, a ≠ [] → hdOr a n ∈ a := by
  intro a h
  cases a with
  | nil => exact absurd rfl h
  | cons x a => exact List.mem_cons_self ..

theorem seg_append (mem : Nat → Option Entry) (a b : List Nat) (n : Nat) : ∀ p,
    Seg mem p (a ++ b) n ↔ Seg mem p a (hdOr b n) ∧ Seg mem (lastOr p a) b n := by
  induction a with
  | nil => intro p; simp [Seg, lastOr]
  | cons x a ih =>
    intro p
    simp only [List.cons_append, Seg, lastOr, ih x, hdOr_append]
    exact ⟨fun h => ⟨⟨h.1, h.2.1⟩, h.2.2⟩, fun h => ⟨h.1.1, h.1.2, h.2⟩⟩

theorem seg_congr {mem mem' : Nat → Option Entry} : ∀ (l : List Nat) (p n : Nat),
    (∀ x ∈ l, mem' x = mem x) → Seg mem p l n → Seg mem' p l n := by
  intro l
  induction l with
  | nil => intro p n _ _; trivial
  | cons x l ih =>
    intro p n h hs
    obtain ⟨⟨e, h1, h2⟩, h3⟩ := hs
    exact ⟨⟨e, by rw [h x (List.mem_cons_self ..), h1], h2⟩,
      ih x n (fun y hy => h y (List.mem_cons_of_mem _ hy)) h3⟩

theorem seg_mem {mem : Nat → Option Entry} : ∀ (l : List Nat) (p n x : Nat), Seg mem p l n → x ∈ l →
    ∃ e, mem x = some e := by
  intro l
  induction l with
  | nil => intro p n x _ h; cases h
  | cons y l ih =>
    intro p n x hs h
    rcases List.mem_cons.1 h with rfl | h
    · obtain ⟨⟨e, h1, _⟩, _⟩ := hs; exact ⟨e, h1⟩
    · exact ih y n x hs.2 h

/-- change one entry -/
def upd (mem : Nat → Option Entry) (x : Nat) (e : Option Entry) : Nat → Option Entry :=
  fun o => if o = x then e else mem o

theorem upd_same (mem : Nat → Option Entry) (x : Nat) (e : Option Entry) : upd mem x e x = e :=
  if_pos rfl
theorem upd_ne (mem : Nat → Option Entry) {x y : Nat} (e : Option Entry) (h : y ≠ x) :
    upd mem x e y = mem y := if_neg h

theorem setMem_mem (s : St) (o : Nat) (e : Option Entry) : (s.setMem o e).mem = upd s.mem o e := rfl
theorem setMem_heads (s : St) (o : Nat) (e : Option Entry) : (s.setMem o e).heads = s.heads := rfl
theorem setHead_mem (s : St) (L : Loc) (h : Head) : (s.setHead L h).mem = s.mem := rfl
theorem setHead_same (s : St) (L : Loc) (h : Head) : (s.setHead L h).heads L = h := if_pos rfl
theorem setHead_ne (s : St) {L K : Loc} (h : Head) (hne : K ≠ L) :
    (s.setHead L h).heads K = s.heads K := if_neg hne

/-- redirect the `next` of the last entry of a segment -/
theorem seg_setNext {mem : Nat → Option Entry} (n' : Nat) : ∀ (a : List Nat) (p n : Nat),
    a ≠ [] → a.Nodup → Seg mem p a n →
    ∃ e, mem (lastOr p a) = some e ∧
      Seg (upd mem (lastOr p a) (some { e with next := n' })) p a n' := by
  intro a
  induction a with
  | nil => intro p n h; exact absurd rfl h
  | cons x a ih =>
    intro p n _ hnd hs
    obtain ⟨⟨e, h1, h2, h3⟩, h4⟩ := hs
    cases ha : a with
    | nil =>
      refine ⟨e, h1, ⟨_, upd_same _ _ _, h2, ?_⟩, trivial⟩
      simp [hdOr]
    | cons y a' =>
      rw [← ha]
      have hne : a ≠ [] := by rw [ha]; exact List.cons_ne_nil _ _
      obtain ⟨e', h5, h6⟩ := ih x n hne (List.nodup_cons.1 hnd).2 h4
      refine ⟨e', h5, ⟨e, ?_, h2, ?_⟩, h6⟩
      · rw [show lastOr p (x :: a) = lastOr x a from rfl, upd_ne _ _ _, h1]
        intro hx
        exact (List.nodup_cons.1 hnd).1 (by rw [hx]; exact lastOr_mem x a hne)
      · rw [h3, ha]; rfl

/-- redirect the `prev` of the first entry of a segment -/
theorem seg_setPrev {mem : Nat → Option Entry} (p' : Nat) (b : List Nat) (y p n : Nat)
    (hnd : (y :: b).Nodup) (hs : Seg mem p (y :: b) n) :
    ∃ e, mem y = some e ∧ Seg (upd mem y (some { e with prev := p' })) p' (y :: b) n := by
  obtain ⟨⟨e, h1, h2, h3⟩, h4⟩ := hs
  refine ⟨e, h1, ⟨_, upd_same _ _ _, rfl, h3⟩, ?_⟩
  apply seg_congr _ _ _ _ h4
  intro x hx
  apply upd_ne
  intro he; subst he
  exact (List.nodup_cons.1 hnd).1 hx

/-! ## the invariant -/

/-- the place holds a list head -/
def Live (mem : Nat → Option Entry) : Loc → Prop
  | .metric _ => True
  | .inner o => ∃ e, mem o = some e ∧ e.typ = tList

/-- type and count of an entry -/
def info (e : Entry) : Nat × Nat := (e.typ, e.cnt)

/-- `q` gives the entries of every list.  `lim` are entries being removed, `ex` the amount by which
a count is still too large while an entry is being removed.  `stamp` grows from a list to the lists
inside it and is at most `N`. -/
structure Inv (s : St) (q : Loc → List Nat) (stamp : Nat → Nat) (N : Nat) (lim : Nat → Prop)
    (ex : Loc → Nat) : Prop where
  head : ∀ L, Live s.mem L → s.heads L = ⟨hdOr (q L) 0, lastOr 0 (q L), (q L).length + ex L⟩
  seg : ∀ L, Seg s.mem 0 (q L) 0
  nz : ∀ L x, x ∈ q L → x ≠ 0
  disj : ∀ L K x, x ∈ q L → x ∈ q K → L = K
  nodup : ∀ L, (q L).Nodup
  dead : ∀ L, ¬ Live s.mem L → q L = []
  up : ∀ o x e, x ∈ q (.inner o) → s.mem x = some e → e.typ = tList → stamp o < stamp x
  bnd : ∀ x, stamp x ≤ N
  loose : ∀ x e, s.mem x = some e → e.typ = tRec → ¬ lim x → (∀ L, x ∉ q L) →
    e.prev = 0 ∧ e.next = 0

theorem live_congr {mem mem' : Nat → Option Entry}
    (h : ∀ x, (mem' x).map info = (mem x).map info) (L : Loc) : Live mem' L ↔ Live mem L := by
  cases L with
  | metric i => exact Iff.rfl
  | inner o =>
    have := h o
    simp only [Live]
    constructor
    · rintro ⟨e, h1, h2⟩
      rw [h1] at this
      cases hm : mem o with
      | none => rw [hm] at this; cases this
      | some e' =>
        rw [hm] at this
        simp only [Option.map_some, Option.some.injEq, info, Prod.mk.injEq] at this
        exact ⟨e', rfl, by rw [← this.1]; exact h2⟩
    · rintro ⟨e, h1, h2⟩
      rw [h1] at this
      cases hm : mem' o with
      | none => rw [hm] at this; cases this
      | some e' =>
        rw [hm] at this
        simp only [Option.map_some, Option.some.injEq, info, Prod.mk.injEq] at this
        exact ⟨e', rfl, by rw [this.1]; exact h2⟩

theorem info_upd {mem : Nat → Option Entry} {x : Nat} {e e' : Entry} (h : mem x = some e)
    (hi : info e' = info e) : ∀ y, (upd mem x (some e') y).map info = (mem y).map info := by
  intro y
  by_cases hy : y = x
  · subst hy; rw [upd_same, h]; simp [hi]
  · rw [upd_ne _ _ hy]

theorem live_of_mem {s : St} {q : Loc → List Nat} {st : Nat → Nat} {N : Nat} {lim : Nat → Prop}
    {ex : Loc → Nat} (h : Inv s q st N lim ex) {L : Loc} {x : Nat} (hx : x ∈ q L) : Live s.mem L := by
  apply Classical.byContradiction
  intro hn
  rw [h.dead L hn] at hx; cases hx

/-- change the entries of one list -/
def setQ (q : Loc → List Nat) (L : Loc) (l : List Nat) : Loc → List Nat :=
  fun K => if K = L then l else q K

theorem setQ_same (q : Loc → List Nat) (L : Loc) (l : List Nat) : setQ q L l L = l := if_pos rfl
theorem setQ_ne (q : Loc → List Nat) {L K : Loc} (l : List Nat) (h : K ≠ L) : setQ q L l K = q K :=
  if_neg h

/-- increase the excess of one list -/
def bump (ex : Loc → Nat) (L : Loc) : Loc → Nat := fun K => if K = L then ex K + 1 else ex K

/-- `Inv` for a memory that differs from the old one in the links of the entries of `L` only -/
theorem inv_relink {s s1 : St} {q : Loc → List Nat} {st : Nat → Nat} {N : Nat} {lim lim' : Nat → Prop}
    {ex ex' : Loc → Nat} (h : Inv s q st N lim ex) (L : Loc) (hL : Live s.mem L) (l : List Nat)
    (hsub : ∀ x ∈ l, x ∈ q L ∨ (x ≠ 0 ∧ (∀ K, x ∉ q K) ∧ ∀ e, s.mem x = some e → e.typ = tList →
      ∀ o, L = .inner o → st o < st x))
    (hnd : l.Nodup)
    (hinfo : ∀ x, (s1.mem x).map info = (s.mem x).map info)
    (hmem : ∀ x, x ∉ q L → x ∉ l → s1.mem x = s.mem x)
    (hheads : ∀ K, K ≠ L → s1.heads K = s.heads K)
    (hhead : s1.heads L = ⟨hdOr l 0, lastOr 0 l, l.length + ex' L⟩)
    (hseg : Seg s1.mem 0 l 0)
    (hex : ∀ K, K ≠ L → ex' K = ex K)
    (hlim : ∀ x, ¬ lim' x → x ∈ q L → x ∈ l) (hlim2 : ∀ x, lim x → lim' x ∨ x ∈ l) :
    Inv s1 (setQ q L l) st N lim' ex' := by
  have hcase : ∀ K x, x ∈ setQ q L l K → (K = L ∧ x ∈ l) ∨ (K ≠ L ∧ x ∈ q K) := by
    intro K x hx
    by_cases hK : K = L
    · subst hK; rw [setQ_same] at hx; exact Or.inl ⟨rfl, hx⟩
    · rw [setQ_ne _ _ hK] at hx; exact Or.inr ⟨hK, hx⟩
  refine ⟨?_, ?_, ?_, ?_, ?_, ?_, ?_, h.bnd, ?_⟩
  · intro K hK
    by_cases hKL : K = L
    · subst hKL; rw [setQ_same]; exact hhead
    · rw [setQ_ne _ _ hKL, hheads K hKL, hex K hKL]
      exact h.head K ((live_congr hinfo K).1 hK)
  · intro K
    by_cases hKL : K = L
    · subst hKL; rw [setQ_same]; exact hseg
    · rw [setQ_ne _ _ hKL]
      apply seg_congr _ _ _ _ (h.seg K)
      intro x hx
      apply hmem
      · intro hx'; exact hKL (h.disj _ _ _ hx hx')
      · intro hx'
        rcases hsub x hx' with h' | h'
        · exact hKL (h.disj _ _ _ hx h')
        · exact h'.2.1 K hx
  · intro K x hx
    rcases hcase K x hx with ⟨_, h'⟩ | ⟨_, h'⟩
    · rcases hsub x h' with h'' | h''
      · exact h.nz _ _ h''
      · exact h''.1
    · exact h.nz _ _ h'
  · intro K K' x hx hx'
    rcases hcase K x hx with ⟨e, h1⟩ | ⟨e, h1⟩ <;> rcases hcase K' x hx' with ⟨e', h2⟩ | ⟨e', h2⟩
    · rw [e, e']
    · exfalso
      rcases hsub x h1 with h'' | h''
      · exact e' (h.disj _ _ _ h2 h'')
      · exact h''.2.1 _ h2
    · exfalso
      rcases hsub x h2 with h'' | h''
      · exact e (h.disj _ _ _ h1 h'')
      · exact h''.2.1 _ h1
    · exact h.disj _ _ _ h1 h2
  · intro K
    by_cases hKL : K = L
    · subst hKL; rw [setQ_same]; exact hnd
    · rw [setQ_ne _ _ hKL]; exact h.nodup K
  · intro K hK
    by_cases hKL : K = L
    · subst hKL; exact absurd ((live_congr hinfo K).2 hL) hK
    · rw [setQ_ne _ _ hKL]
      exact h.dead K (fun hh => hK ((live_congr hinfo K).2 hh))
  · intro o x e hx he ht
    have : ∃ e0, s.mem x = some e0 ∧ e0.typ = tList := by
      have := hinfo x
      rw [he] at this
      cases hm : s.mem x with
      | none => rw [hm] at this; cases this
      | some e0 =>
        rw [hm] at this
        simp only [Option.map_some, Option.some.injEq, info, Prod.mk.injEq] at this
        exact ⟨e0, rfl, by rw [← this.1]; exact ht⟩
    obtain ⟨e0, h0, ht0⟩ := this
    rcases hcase _ x hx with ⟨eL, h'⟩ | ⟨_, h'⟩
    · rcases hsub x h' with h'' | h''
      · rw [← eL] at h''; exact h.up o x e0 h'' h0 ht0
      · exact h''.2.2 e0 h0 ht0 o eL.symm
    · exact h.up o x e0 h' h0 ht0
  · intro x e he ht hl hno
    have hxl : x ∉ l := by
      have := hno L; rwa [setQ_same] at this
    have hxq : x ∉ q L := fun hx => hxl (hlim x hl hx)
    rw [hmem x hxq hxl] at he
    refine h.loose x e he ht ?_ ?_
    · intro hlx
      rcases hlim2 x hlx with h' | h'
      · exact hl h'
      · exact hxl h'
    · intro K hK
      by_cases hKL : K = L
      · subst hKL; exact hxq hK
      · have := hno K; rw [setQ_ne _ _ hKL] at this; exact this hK

/-! ## unlinking an entry -/

theorem erase_split {α : Type} [DecidableEq α] (a b : List α) (x : α) (h : x ∉ a) :
    (a ++ x :: b).erase x = a ++ b := by
  rw [List.erase_append_right _ h]; simp

theorem unlink_ok {s : St} {q : Loc → List Nat} {st : Nat → Nat} {N : Nat} {lim : Nat → Prop}
    {ex : Loc → Nat} (h : Inv s q st N lim ex) (L : Loc) (off : Nat) (hoff : off ∈ q L) (e : Entry)
    (he : s.mem off = some e) :
    ∃ s1, unlink s L e = some s1 ∧
      Inv s1 (setQ q L ((q L).erase off)) st N (fun x => lim x ∨ x = off) (bump ex L) ∧
      (∀ x, (s1.mem x).map info = (s.mem x).map info) := by
  have hL := live_of_mem h hoff
  obtain ⟨a, b, hab⟩ := List.append_of_mem hoff
  have hnd := h.nodup L
  rw [hab] at hnd
  have hoa : off ∉ a := by
    intro hx
    exact (List.nodup_append.1 hnd).2.2 _ hx _ (List.mem_cons_self ..) rfl
  have hob : off ∉ b := (List.nodup_cons.1 (List.nodup_append.1 hnd).2.1).1
  have hnda : a.Nodup := (List.nodup_append.1 hnd).1
  have hndb : b.Nodup := (List.nodup_cons.1 (List.nodup_append.1 hnd).2.1).2
  have hdab : ∀ x ∈ a, x ∉ b := fun x hx hxb =>
    (List.nodup_append.1 hnd).2.2 _ hx _ (List.mem_cons_of_mem _ hxb) rfl
  have herase : (q L).erase off = a ++ b := by rw [hab]; exact erase_split a b off hoa
  have hseg := h.seg L
  rw [hab, seg_append] at hseg
  obtain ⟨hsa, ⟨e', he', hprev, hnext⟩, hsb⟩ := hseg
  rw [he] at he'; injection he' with he'; subst he'
  have hhead := h.head L hL
  have hlen : (q L).length + ex L = (a ++ b).length + bump ex L L := by
    rw [hab]; simp [bump]; omega
  have hina : ∀ x ∈ a, x ∈ q L := fun x hx => by rw [hab]; exact List.mem_append_left _ hx
  have hinb : ∀ x ∈ b, x ∈ q L := fun x hx => by
    rw [hab]; exact List.mem_append_right _ (List.mem_cons_of_mem _ hx)
  have hprev0 : e.prev = 0 ↔ a = [] := by
    constructor
    · intro h0
      apply Classical.byContradiction
      intro hne
      exact h.nz L _ (hina _ (lastOr_mem 0 a hne)) (by rw [← hprev]; exact h0)
    · intro ha; rw [hprev, ha]; rfl
  have hnext0 : e.next = 0 ↔ b = [] := by
    constructor
    · intro h0
      apply Classical.byContradiction
      intro hne
      exact h.nz L _ (hinb _ (hdOr_mem 0 b hne)) (by rw [← hnext]; exact h0)
    · intro hb; rw [hnext, hb]; rfl
  -- the conclusion from the facts about the new state
  have conclude : ∀ s1 : St, unlink s L e = some s1 →
      (∀ x, (s1.mem x).map info = (s.mem x).map info) →
      (∀ x, x ∉ a → x ∉ b → s1.mem x = s.mem x) →
      (∀ K, K ≠ L → s1.heads K = s.heads K) →
      s1.heads L = ⟨hdOr (a ++ b) 0, lastOr 0 (a ++ b), (q L).length + ex L⟩ →
      Seg s1.mem 0 (a ++ b) 0 →
      ∃ s1, unlink s L e = some s1 ∧
        Inv s1 (setQ q L ((q L).erase off)) st N (fun x => lim x ∨ x = off) (bump ex L) ∧
        (∀ x, (s1.mem x).map info = (s.mem x).map info) := by
    intro s1 h1 h2 h3 h4 h5 h6
    refine ⟨s1, h1, ?_, h2⟩
    rw [herase]
    apply inv_relink h L hL (a ++ b) _ _ h2 _ h4 _ h6
    · intro K hK; simp [bump, hK]
    · intro x hx hxq
      rw [hab] at hxq
      rcases List.mem_append.1 hxq with h' | h'
      · exact List.mem_append_left _ h'
      · rcases List.mem_cons.1 h' with h' | h'
        · exact absurd (Or.inr h') hx
        · exact List.mem_append_right _ h'
    · intro x hx; exact Or.inl (Or.inl hx)
    · intro x hx
      rcases List.mem_append.1 hx with h' | h'
      · exact Or.inl (hina x h')
      · exact Or.inl (hinb x h')
    · rw [← herase]; exact (h.nodup L).erase _
    · intro x hx hx'
      exact h3 x (fun hh => hx' (List.mem_append_left _ hh)) (fun hh => hx' (List.mem_append_right _ hh))
    · rw [h5, hlen]
  by_cases ha : a = []
  · have hp := hprev0.2 ha
    subst ha
    by_cases hb : b = []
    · have hn := hnext0.2 hb
      subst hb
      refine conclude ((s.setHead L { s.heads L with head := e.next }).setHead L
        { (s.setHead L { s.heads L with head := e.next }).heads L with tail := e.prev }) ?_ ?_ ?_ ?_ ?_ ?_
      · simp [unlink, hp, hn]
      · intro x; rfl
      · intro x _ _; rfl
      · intro K hK; rw [setHead_ne _ _ hK, setHead_ne _ _ hK]
      · rw [setHead_same, setHead_same, hhead, hp, hn]; rfl
      · trivial
    · have hn : e.next ≠ 0 := fun h0 => hb (hnext0.1 h0)
      obtain ⟨y, b', rfl⟩ := List.exists_cons_of_ne_nil hb
      obtain ⟨ey, hey, hsb'⟩ := seg_setPrev e.prev b' y off 0 hndb hsb
      have hny : e.next = y := hnext
      refine conclude ((s.setHead L { s.heads L with head := e.next }).setMem e.next
        (some { ey with prev := e.prev })) ?_ ?_ ?_ ?_ ?_ ?_
      · simp only [unlink, hp, if_true]
        rw [if_neg hn, setHead_mem, hny, hey]
      · rw [setMem_mem, setHead_mem, hny]; exact info_upd hey rfl
      · intro x _ hx
        rw [setMem_mem, setHead_mem, hny]
        exact upd_ne _ _ (fun h' => hx (h' ▸ List.mem_cons_self ..))
      · intro K hK; rw [setMem_heads, setHead_ne _ _ hK]
      · rw [setMem_heads, setHead_same, hhead, hab]
        simp only [List.nil_append]
        rw [hny]; rfl
      · rw [setMem_mem, setHead_mem, hny, List.nil_append]
        rw [hp] at hsb'
        rw [hp]; exact hsb'
  · have hp : e.prev ≠ 0 := fun h0 => ha (hprev0.1 h0)
    obtain ⟨ep, hep, hsa'⟩ := seg_setNext e.next a 0 _ ha hnda hsa
    have hpl : e.prev = lastOr 0 a := hprev
    have hpa : e.prev ∈ a := by rw [hpl]; exact lastOr_mem 0 a ha
    by_cases hb : b = []
    · have hn := hnext0.2 hb
      subst hb
      refine conclude ((s.setMem e.prev (some { ep with next := e.next })).setHead L
        { (s.setMem e.prev (some { ep with next := e.next })).heads L with tail := e.prev }) ?_ ?_ ?_ ?_ ?_ ?_
      · simp only [unlink]
        rw [if_neg hp, hpl, hep]
        simp only
        rw [if_pos hn]
      · rw [setHead_mem, setMem_mem, hpl]; exact info_upd hep rfl
      · intro x hx _
        rw [setHead_mem, setMem_mem]
        exact upd_ne _ _ (fun h' => hx (h' ▸ hpa))
      · intro K hK; rw [setHead_ne _ _ hK, setMem_heads]
      · rw [setHead_same, setMem_heads, hhead, hab, List.append_nil]
        simp only
        rw [hpl, hdOr_append]
        cases a with
        | nil => exact absurd rfl ha
        | cons z a => rfl
      · rw [setHead_mem, setMem_mem, List.append_nil, hpl]
        rw [hn] at hsa' ⊢; exact hsa'
    · have hn : e.next ≠ 0 := fun h0 => hb (hnext0.1 h0)
      obtain ⟨y, b', rfl⟩ := List.exists_cons_of_ne_nil hb
      have hny : e.next = y := hnext
      have hyp : y ≠ e.prev := fun h' => hdab _ hpa (h' ▸ List.mem_cons_self ..)
      -- after the first write
      have hsb1 : Seg (upd s.mem e.prev (some { ep with next := e.next })) off (y :: b') 0 := by
        apply seg_congr _ _ _ _ hsb
        intro x hx
        exact upd_ne _ _ (fun h' => hdab _ hpa (h' ▸ hx))
      obtain ⟨ey, hey, hsb'⟩ := seg_setPrev e.prev b' y off 0 hndb hsb1
      refine conclude ((s.setMem e.prev (some { ep with next := e.next })).setMem e.next
        (some { ey with prev := e.prev })) ?_ ?_ ?_ ?_ ?_ ?_
      · simp only [unlink]
        rw [if_neg hp]
        rw [show s.mem e.prev = some ep by rw [hpl]; exact hep]
        simp only
        rw [if_neg hn, setMem_mem, hny]
        rw [hny] at hey
        rw [hey]
      · intro x
        rw [setMem_mem, setMem_mem, hny]
        rw [hny] at hey
        refine (info_upd (e' := { ey with prev := e.prev }) hey rfl x).trans ?_
        exact info_upd (e' := { ep with next := y }) (show s.mem e.prev = some ep by rw [hpl]; exact hep) rfl x
      · intro x hx hx'
        have h1 : x ≠ y := fun h' => hx' (h' ▸ List.mem_cons_self ..)
        have h2 : x ≠ e.prev := fun h' => hx (h' ▸ hpa)
        rw [setMem_mem, setMem_mem, hny, upd_ne _ _ h1, upd_ne _ _ h2]
      · intro K hK; rw [setMem_heads, setMem_heads]
      · rw [setMem_heads, setMem_heads, hhead, hab, hdOr_append, hdOr_append, lastOr_append,
          lastOr_append]
        congr 1
        cases a with
        | nil => exact absurd rfl ha
        | cons z a => rfl
      · rw [setMem_mem, setMem_mem, seg_append]
        rw [hny] at hsb' ⊢
        constructor
        · rw [← hpl, hny] at hsa'
          apply seg_congr _ _ _ _ hsa'
          intro x hx
          exact upd_ne _ _ (fun h' => hdab x hx (h' ▸ List.mem_cons_self ..))
        · rw [← hpl]; exact hsb'

/-! ## freeing an unlinked entry -/

theorem free_ok {s : St} {q : Loc → List Nat} {st : Nat → Nat} {N : Nat} {lim : Nat → Prop}
    {ex : Loc → Nat} (L : Loc) (off : Nat)
    (h : Inv s q st N (fun x => lim x ∨ x = off) (bump ex L)) (hL : Live s.mem L)
    (hno : ∀ K, off ∉ q K) (hin : q (.inner off) = []) (hne : L ≠ .inner off) :
    Inv (freeEntry s L off) q st N lim ex ∧
      ∀ x, (freeEntry s L off).mem x = if x = off then none else s.mem x := by
  have hmem : ∀ x, (freeEntry s L off).mem x = if x = off then none else s.mem x := fun x => rfl
  have hmem' : ∀ x, x ≠ off → (freeEntry s L off).mem x = s.mem x := fun x hx => if_neg hx
  have hlive : ∀ K, K ≠ .inner off → (Live (freeEntry s L off).mem K ↔ Live s.mem K) := by
    intro K hK
    cases K with
    | metric i => exact Iff.rfl
    | inner o =>
      have : o ≠ off := fun h => hK (by rw [h])
      simp only [Live, hmem' o this]
  have hdeadoff : ¬ Live (freeEntry s L off).mem (.inner off) := by
    rintro ⟨e, he, _⟩
    rw [hmem, if_pos rfl] at he; cases he
  refine ⟨⟨?_, ?_, h.nz, h.disj, h.nodup, ?_, ?_, h.bnd, ?_⟩, hmem⟩
  · intro K hK
    have hKo : K ≠ .inner off := fun hh => hdeadoff (hh ▸ hK)
    have hh := h.head K ((hlive K hKo).1 hK)
    by_cases hKL : K = L
    · subst hKL
      show (St.setHead _ K _).heads K = _
      rw [setHead_same]
      rw [setMem_heads, hh]
      simp [bump]
    · show (St.setHead _ L _).heads K = _
      rw [setHead_ne _ _ hKL, setMem_heads, hh]
      simp [bump, hKL]
  · intro K
    apply seg_congr _ _ _ _ (h.seg K)
    intro x hx
    exact hmem' x (fun hh => hno K (hh ▸ hx))
  · intro K hK
    by_cases hKo : K = .inner off
    · rw [hKo]; exact hin
    · exact h.dead K (fun hh => hK ((hlive K hKo).2 hh))
  · intro o x e hx he ht
    rw [hmem' x (fun hh => hno _ (hh ▸ hx))] at he
    exact h.up o x e hx he ht
  · intro x e he ht hl hxn
    by_cases hxo : x = off
    · subst hxo; rw [hmem, if_pos rfl] at he; cases he
    · rw [hmem' x hxo] at he
      exact h.loose x e he ht (by rintro (h' | h'); exact hl h'; exact hxo h') hxn

/-! ## what lies below a list -/

theorem below_trans {q : Loc → List Nat} {L : Loc} {y x : Nat} (h : Below q L y)
    (h' : Below q (.inner y) x) : Below q L x := by
  induction h with
  | here hy => exact .deep hy h'
  | deep hy _ ih => exact .deep hy (ih h')

theorem below_mono {q q' : Loc → List Nat} (h : ∀ K x, x ∈ q' K → x ∈ q K) {L : Loc} {x : Nat}
    (hb : Below q' L x) : Below q L x := by
  induction hb with
  | here hy => exact .here (h _ _ hy)
  | deep hy _ ih => exact .deep (h _ _ hy) ih

/-- the place is the value of an entry of `g` -/
def In (g : Nat → Prop) : Loc → Prop
  | .metric _ => False
  | .inner o => g o

open Classical in
theorem prune_in {q : Loc → List Nat} {g : Nat → Prop} {K : Loc} (h : In g K) : prune q g K = [] := by
  cases K with
  | metric i => cases h
  | inner o => exact if_pos h

open Classical in
theorem prune_out {q : Loc → List Nat} {g : Nat → Prop} {K : Loc} (h : ¬ In g K) :
    prune q g K = (q K).filter (fun x => decide (¬ g x)) := by
  cases K with
  | metric i => rfl
  | inner o => exact if_neg h

theorem mem_prune {q : Loc → List Nat} {g : Nat → Prop} {K : Loc} {x : Nat} :
    x ∈ prune q g K ↔ ¬ In g K ∧ x ∈ q K ∧ ¬ g x := by
  by_cases h : In g K
  · rw [prune_in h]; simp [h]
  · rw [prune_out h]; simp [h]

theorem prune_congr {q : Loc → List Nat} {g g' : Nat → Prop} (h : ∀ x, g x ↔ g' x) :
    prune q g = prune q g' := by
  have : g = g' := funext fun x => propext (h x)
  rw [this]

theorem prune_prune (q : Loc → List Nat) (g g' : Nat → Prop) :
    prune (prune q g) g' = prune q (fun x => g x ∨ g' x) := by
  funext K
  by_cases h : In g K
  · have h1 : In (fun x => g x ∨ g' x) K := by
      cases K with
      | metric i => cases h
      | inner o => exact Or.inl h
    rw [prune_in h1]
    by_cases h' : In g' K
    · rw [prune_in h']
    · rw [prune_out h', prune_in h]; rfl
  · by_cases h' : In g' K
    · have h1 : In (fun x => g x ∨ g' x) K := by
        cases K with
        | metric i => cases h'
        | inner o => exact Or.inr h'
      rw [prune_in h1, prune_in h']
    · have h1 : ¬ In (fun x => g x ∨ g' x) K := by
        cases K with
        | metric i => exact h
        | inner o => rintro (hh | hh); exact h hh; exact h' hh
      rw [prune_out h1, prune_out h', prune_out h, List.filter_filter]
      apply List.filter_congr
      intro x _
      by_cases hg : g x <;> by_cases hg' : g' x <;> simp [hg, hg']

theorem prune_none (q : Loc → List Nat) (g : Nat → Prop) (h : ∀ x, ¬ g x) : prune q g = q := by
  funext K
  have hn : ¬ In g K := by
    cases K with
    | metric i => exact id
    | inner o => exact h o
  rw [prune_out hn]
  apply List.filter_eq_self.2
  intro x _; simp [h x]

theorem below_split (q : Loc → List Nat) (L : Loc) (off : Nat) (hoff : off ∈ q L)
    (hL : ¬ In (goneR q off) L) (x : Nat) :
    (goneR q off x ∨ Below (prune q (goneR q off)) L x) ↔ Below q L x := by
  constructor
  · rintro ((rfl | h) | h)
    · exact .here hoff
    · exact .deep hoff h
    · exact below_mono (fun K y hy => (mem_prune.1 hy).2.1) h
  · intro h
    have : ∀ K z, Below q K z → ¬ In (goneR q off) K →
        (goneR q off z ∨ Below (prune q (goneR q off)) K z) := by
      intro K z hb
      induction hb with
      | @here K z hz =>
        intro hK
        by_cases hg : goneR q off z
        · exact Or.inl hg
        · exact Or.inr (.here (mem_prune.2 ⟨hK, hz, hg⟩))
      | @deep K y z hy hb ih =>
        intro hK
        by_cases hg : goneR q off y
        · left
          rcases hg with rfl | hg
          · exact Or.inr hb
          · exact Or.inr (below_trans hg hb)
        · rcases ih hg with h' | h'
          · exact Or.inl h'
          · exact Or.inr (.deep (mem_prune.2 ⟨hK, hy, hg⟩) h')
    exact this L x h hL

section
variable {s : St} {q : Loc → List Nat} {st : Nat → Nat} {N : Nat} {lim : Nat → Prop} {ex : Loc → Nat}

theorem below_live (h : Inv s q st N lim ex) {L : Loc} {x : Nat} (hb : Below q L x) :
    Live s.mem L := by
  cases hb with
  | here hx => exact live_of_mem h hx
  | deep hy _ => exact live_of_mem h hy

theorem below_alloc (h : Inv s q st N lim ex) {L : Loc} {x : Nat} (hb : Below q L x) :
    ∃ e, s.mem x = some e := by
  induction hb with
  | @here L x hx => exact seg_mem _ _ _ _ (h.seg L) hx
  | deep _ _ ih => exact ih

/-- stamps grow downwards -/
theorem below_stamp (h : Inv s q st N lim ex) {L : Loc} {x : Nat} (hb : Below q L x)
    (hx : Live s.mem (.inner x)) : ∀ o, L = .inner o → st o < st x := by
  induction hb with
  | @here L x hm =>
    intro o ho
    obtain ⟨e, he, ht⟩ := hx
    rw [ho] at hm
    exact h.up o x e hm he ht
  | @deep L y x hy hb ih =>
    intro o ho
    obtain ⟨e, he, ht⟩ := below_live h hb
    rw [ho] at hy
    exact Nat.lt_trans (h.up o y e hy he ht) (ih hx y rfl)

theorem below_irrefl (h : Inv s q st N lim ex) {x : Nat} : ¬ Below q (.inner x) x := by
  intro hb
  exact absurd (below_stamp h hb (below_live h hb) x rfl) (Nat.lt_irrefl _)

/-- the list an entry is in is not inside the entry -/
theorem not_in_gone (h : Inv s q st N lim ex) {L : Loc} {off : Nat} (hoff : off ∈ q L) :
    ¬ In (goneR q off) L := by
  cases L with
  | metric i => exact id
  | inner o =>
    rintro (rfl | hb)
    · exact below_irrefl h (.here hoff)
    · exact below_irrefl h (below_trans hb (.here hoff))

theorem below_erase (h : Inv s q st N lim ex) {L : Loc} {off : Nat} (hoff : off ∈ q L) (x : Nat) :
    Below (setQ q L ((q L).erase off)) (.inner off) x ↔ Below q (.inner off) x := by
  constructor
  · apply below_mono
    intro K y hy
    by_cases hK : K = L
    · subst hK; rw [setQ_same] at hy; exact List.mem_of_mem_erase hy
    · rwa [setQ_ne _ _ hK] at hy
  · have : ∀ K z, Below q K z → ¬ Below q K off → Below (setQ q L ((q L).erase off)) K z := by
      have hm : ∀ K z, z ∈ q K → z ≠ off → z ∈ setQ q L ((q L).erase off) K := by
        intro K z hz hne
        by_cases hK : K = L
        · subst hK; rw [setQ_same]; exact (List.mem_erase_of_ne hne).2 hz
        · rwa [setQ_ne _ _ hK]
      intro K z hb
      induction hb with
      | @here K z hz =>
        intro hn
        exact .here (hm K z hz (fun hh => hn (hh ▸ .here hz)))
      | @deep K y z hy hb ih =>
        intro hn
        exact .deep (hm K y hy (fun hh => hn (hh ▸ .here hy))) (ih (fun hh => hn (.deep hy hh)))
    intro hb
    exact this _ _ hb (below_irrefl h)

theorem prune_erase (h : Inv s q st N lim ex) {L : Loc} {off : Nat} (hoff : off ∈ q L) :
    prune (setQ q L ((q L).erase off)) (Below (setQ q L ((q L).erase off)) (.inner off)) =
      prune q (goneR q off) := by
  have e1 : Below (setQ q L ((q L).erase off)) (.inner off) = Below q (.inner off) :=
    funext fun x => propext (below_erase h hoff x)
  rw [e1]
  have hLn := not_in_gone h hoff
  have hsub : ∀ K, In (Below q (.inner off)) K → In (goneR q off) K := by
    intro K hK
    cases K with
    | metric i => exact hK
    | inner o => exact Or.inr hK
  funext K
  by_cases hKL : K = L
  · subst hKL
    rw [prune_out hLn, prune_out (fun hh => hLn (hsub _ hh)), setQ_same,
      (h.nodup K).erase_eq_filter, List.filter_filter]
    apply List.filter_congr
    intro x _
    by_cases hx : x = off <;> by_cases hb : Below q (.inner off) x <;> simp [goneR, hx, hb]
  · by_cases hKo : K = .inner off
    · subst hKo
      have : In (goneR q off) (.inner off) := Or.inl rfl
      rw [prune_in this]
      apply List.eq_nil_iff_forall_not_mem.2
      intro x hx
      rw [mem_prune, setQ_ne _ _ hKL] at hx
      exact hx.2.2 (.here hx.2.1)
    · by_cases hin : In (Below q (.inner off)) K
      · rw [prune_in hin, prune_in (hsub K hin)]
      · have hin' : ¬ In (goneR q off) K := by
          cases K with
          | metric i => exact id
          | inner o =>
            rintro (hh | hh)
            · exact hKo (by rw [hh])
            · exact hin hh
        rw [prune_out hin, prune_out hin', setQ_ne _ _ hKL]
        apply List.filter_congr
        intro x hx
        have : x ≠ off := fun hh => hKL (h.disj _ _ _ hx (hh ▸ hoff))
        by_cases hb : Below q (.inner off) x <;> simp [goneR, this, hb]

end

/-! ## recursion depth -/

theorem fuel_mono : ∀ f,
    (∀ s L off s', removeItem f s L off = some s' → removeItem (f + 1) s L off = some s') ∧
    (∀ s L s', purge f s L = some s' → purge (f + 1) s L = some s') := by
  intro f
  induction f with
  | zero =>
    constructor
    · intro s L off s' h; simp [removeItem] at h
    · intro s L s' h; simp [purge] at h
  | succ f ih =>
    constructor
    · intro s L off s' h
      rw [removeItem] at h
      rw [removeItem]
      cases hm : s.mem off with
      | none => rw [hm] at h; cases h
      | some e =>
        rw [hm] at h
        simp only at h ⊢
        cases hu : unlink s L e with
        | none => rw [hu] at h; cases h
        | some s1 =>
          rw [hu] at h
          simp only at h ⊢
          by_cases ht : e.typ = tList
          · rw [if_pos ht] at h ⊢
            cases hp : purge f s1 (.inner off) with
            | none => rw [hp] at h; cases h
            | some s2 =>
              rw [hp] at h
              rw [ih.2 _ _ _ hp]; exact h
          · rw [if_neg ht] at h ⊢; exact h
    · intro s L s' h
      rw [purge] at h
      rw [purge]
      by_cases hh : (s.heads L).head = 0
      · rw [if_pos hh] at h ⊢; exact h
      · rw [if_neg hh] at h ⊢
        cases hr : removeItem f s L (s.heads L).head with
        | none => rw [hr] at h; cases h
        | some s1 =>
          rw [hr] at h
          rw [ih.1 _ _ _ _ hr]
          exact ih.2 _ _ _ h

theorem fuel_le {f g : Nat} (h : f ≤ g) :
    (∀ s L off s', removeItem f s L off = some s' → removeItem g s L off = some s') ∧
    (∀ s L s', purge f s L = some s' → purge g s L = some s') := by
  induction h with
  | refl => exact ⟨fun _ _ _ _ h => h, fun _ _ _ h => h⟩
  | step _ ih =>
    exact ⟨fun s L off s' h => (fuel_mono _).1 _ _ _ _ (ih.1 _ _ _ _ h),
      fun s L s' h => (fuel_mono _).2 _ _ _ (ih.2 _ _ _ h)⟩

/-! ## removing -/

open Classical in
/-- the entries of `g` are free, the others have kept their type and count -/
def Freed (s s' : St) (g : Nat → Prop) : Prop :=
  ∀ x, (s'.mem x).map info = if g x then none else (s.mem x).map info

theorem freed_trans {s s1 s2 : St} {g g' : Nat → Prop} (h : Freed s s1 g) (h' : Freed s1 s2 g') :
    Freed s s2 (fun x => g x ∨ g' x) := by
  intro x
  rw [h' x]
  by_cases h2 : g' x
  · rw [if_pos h2, if_pos (Or.inr h2)]
  · rw [if_neg h2, h x]
    by_cases h1 : g x
    · rw [if_pos h1, if_pos (Or.inl h1)]
    · rw [if_neg h1, if_neg (by rintro (h' | h'); exact h1 h'; exact h2 h')]

theorem freed_live {s s1 : St} {g : Nat → Prop} (h : Freed s s1 g) (L : Loc) :
    Live s1.mem L ↔ (Live s.mem L ∧ ¬ In g L) := by
  cases L with
  | metric i => simp [Live, In]
  | inner o =>
    have := h o
    simp only [Live, In]
    by_cases hg : g o
    · rw [if_pos hg] at this
      constructor
      · rintro ⟨e, he, _⟩; rw [he] at this; cases this
      · rintro ⟨_, hn⟩; exact absurd hg hn
    · rw [if_neg hg] at this
      constructor
      · rintro ⟨e, he, ht⟩
        rw [he] at this
        cases hm : s.mem o with
        | none => rw [hm] at this; cases this
        | some e' =>
          rw [hm] at this
          simp only [Option.map_some, Option.some.injEq, info, Prod.mk.injEq] at this
          exact ⟨⟨e', rfl, by rw [← this.1]; exact ht⟩, hg⟩
      · rintro ⟨⟨e, he, ht⟩, _⟩
        rw [he] at this
        cases hm : s1.mem o with
        | none => rw [hm] at this; cases this
        | some e' =>
          rw [hm] at this
          simp only [Option.map_some, Option.some.injEq, info, Prod.mk.injEq] at this
          exact ⟨e', rfl, by rw [this.1]; exact ht⟩

/-- nesting levels left below a list -/
def lvl (N : Nat) (st : Nat → Nat) : Loc → Nat
  | .metric _ => N + 1
  | .inner o => N - st o

/-- what `purge` does to a list with fewer than `k` levels below it -/
def PurgeOk (N k : Nat) : Prop :=
  ∀ (s : St) (q : Loc → List Nat) (st : Nat → Nat) (lim : Nat → Prop) (ex : Loc → Nat) (L : Loc),
    Inv s q st N lim ex → Live s.mem L → lvl N st L < k →
    ∃ f s', purge f s L = some s' ∧ Inv s' (prune q (Below q L)) st N lim ex ∧
      Freed s s' (Below q L)

theorem remove_of_purge {N k : Nat} (hp : PurgeOk N k) (s : St) (q : Loc → List Nat) (st : Nat → Nat)
    (lim : Nat → Prop) (ex : Loc → Nat) (L : Loc) (off : Nat)
    (h : Inv s q st N lim ex) (hoff : off ∈ q L)
    (hk : Live s.mem (.inner off) → N - st off < k) :
    ∃ f s', removeItem f s L off = some s' ∧ Inv s' (prune q (goneR q off)) st N lim ex ∧
      Freed s s' (goneR q off) := by
  obtain ⟨e, he⟩ := seg_mem _ _ _ _ (h.seg L) hoff
  obtain ⟨s1, hu, hi1, hinfo⟩ := unlink_ok h L off hoff e he
  have hLn := not_in_gone h hoff
  have hLne : L ≠ .inner off := fun hh => hLn (by rw [hh]; exact Or.inl rfl)
  have hLive := live_of_mem h hoff
  have hpr := prune_erase h hoff
  have hno : ∀ K, off ∉ prune q (goneR q off) K := fun K hm => (mem_prune.1 hm).2.2 (Or.inl rfl)
  have hin : prune q (goneR q off) (.inner off) = [] := prune_in (g := goneR q off) (Or.inl rfl)
  by_cases ht : e.typ = tList
  · have hl : Live s.mem (.inner off) := ⟨e, he, ht⟩
    have hl1 : Live s1.mem (.inner off) := (live_congr hinfo _).2 hl
    obtain ⟨f, s2, hf, hi2, hfr⟩ := hp s1 _ st _ _ (.inner off) hi1 hl1
      (hk hl)
    rw [hpr] at hi2
    have hfr' : Freed s s2 (Below q (.inner off)) := by
      intro x
      rw [hfr x, hinfo x]
      by_cases hb : Below q (.inner off) x
      · rw [if_pos hb, if_pos ((below_erase h hoff x).2 hb)]
      · rw [if_neg hb, if_neg (fun hh => hb ((below_erase h hoff x).1 hh))]
    have hL2 : Live s2.mem L := (freed_live hfr' L).2 ⟨hLive, fun hh => hLn (by
      cases L with
      | metric i => exact hh
      | inner o => exact Or.inr hh)⟩
    obtain ⟨hi3, hm3⟩ := free_ok L off hi2 hL2 hno hin hLne
    refine ⟨f + 1, freeEntry s2 L off, ?_, hi3, ?_⟩
    · rw [removeItem, he]
      simp only [hu, ht, if_true, hf]
    · intro x
      rw [hm3 x]
      by_cases hx : x = off
      · subst hx; rw [if_pos rfl, if_pos (show goneR q x x from Or.inl rfl)]; rfl
      · rw [if_neg hx, hfr' x]
        by_cases hb : Below q (.inner off) x
        · rw [if_pos hb, if_pos (show goneR q off x from Or.inr hb)]
        · rw [if_neg hb, if_neg (show ¬ goneR q off x by rintro (h' | h'); exact hx h'; exact hb h')]
  · have hnl : ¬ Live s.mem (.inner off) := by
      rintro ⟨e', he', ht'⟩
      rw [he] at he'; injection he' with he'; subst he'; exact ht ht'
    have hnb : ∀ x, ¬ Below q (.inner off) x := fun x hb => hnl (below_live h hb)
    have hnb1 : ∀ x, ¬ Below (setQ q L ((q L).erase off)) (.inner off) x :=
      fun x hb => hnb x ((below_erase h hoff x).1 hb)
    rw [prune_none _ _ hnb1] at hpr
    rw [hpr] at hi1
    have hL1 : Live s1.mem L := (live_congr hinfo _).2 hLive
    obtain ⟨hi3, hm3⟩ := free_ok L off hi1 hL1 hno hin hLne
    refine ⟨1, freeEntry s1 L off, ?_, hi3, ?_⟩
    · rw [removeItem, he]
      simp only [hu, ht, if_false]
    · intro x
      rw [hm3 x]
      by_cases hx : x = off
      · subst hx; rw [if_pos rfl, if_pos (show goneR q x x from Or.inl rfl)]; rfl
      · rw [if_neg hx, hinfo x, if_neg (show ¬ goneR q off x by rintro (h' | h'); exact hx h'; exact hnb x h')]

theorem purge_ok (N : Nat) : ∀ k, PurgeOk N k := by
  intro k
  induction k with
  | zero =>
    intro s q st lim ex L h hL hk
    exact absurd hk (Nat.not_lt_zero _)
  | succ k ih =>
    have main : ∀ n (s : St) (q : Loc → List Nat) (st : Nat → Nat) (lim : Nat → Prop)
        (ex : Loc → Nat) (L : Loc), (q L).length = n → 
        Inv s q st N lim ex → Live s.mem L → lvl N st L < k + 1 →
        ∃ f s', purge f s L = some s' ∧ Inv s' (prune q (Below q L)) st N lim ex ∧
          Freed s s' (Below q L) := by
      intro n
      induction n using Nat.strongRecOn with
      | _ n ihn =>
        intro s q st lim ex L hn h hL hk
        have hhead := h.head L hL
        cases hq : q L with
        | nil =>
          have hnb : ∀ x, ¬ Below q L x := by
            intro x hb
            cases hb with
            | here hx => rw [hq] at hx; cases hx
            | deep hy _ => rw [hq] at hy; cases hy
          refine ⟨1, s, ?_, ?_, ?_⟩
          · rw [purge, hhead, hq]; rfl
          · rw [prune_none _ _ hnb]; exact h
          · intro x; rw [if_neg (hnb x)]
        | cons x xs =>
          have hx : x ∈ q L := by rw [hq]; exact List.mem_cons_self ..
          have hLn := not_in_gone h hx
          have hlev : Live s.mem (.inner x) → N - st x < k := by
            rintro ⟨e, he, ht⟩
            cases L with
            | metric i =>
              simp only [lvl] at hk
              omega
            | inner o =>
              have h1 := h.up o x e hx he ht
              have h2 := h.bnd x
              simp only [lvl] at hk
              omega
          obtain ⟨f1, s1, hf1, hi1, hfr1⟩ := remove_of_purge ih s q st lim ex L x h hx hlev
          have hL1 : Live s1.mem L := (freed_live hfr1 L).2 ⟨hL, hLn⟩
          have hlen : (prune q (goneR q x) L).length < n := by
            rw [prune_out hLn, ← hn, hq, List.filter_cons]
            rw [if_neg (by simp [goneR])]
            exact Nat.lt_succ_of_le (List.length_filter_le _ _)
          obtain ⟨f2, s2, hf2, hi2, hfr2⟩ := ihn _ hlen s1 _ st lim ex L rfl hi1 hL1 hk
          have hsplit := below_split q L x hx hLn
          refine ⟨max f1 f2 + 1, s2, ?_, ?_, ?_⟩
          · have hh : (s.heads L).head = x := by rw [hhead, hq]; rfl
            rw [purge, hh, if_neg (h.nz L x hx),
              (fuel_le (Nat.le_max_left f1 f2)).1 _ _ _ _ hf1]
            exact (fuel_le (Nat.le_max_right f1 f2)).2 _ _ _ hf2
          · rw [prune_prune, prune_congr hsplit] at hi2
            exact hi2
          · have := freed_trans hfr1 hfr2
            intro y
            rw [this y]
            by_cases hb : Below q L y
            · rw [if_pos hb, if_pos ((hsplit y).2 hb)]
            · rw [if_neg hb, if_neg (fun hh => hb ((hsplit y).1 hh))]
    intro s q st lim ex L
    exact main _ s q st lim ex L rfl

theorem remove_ok {s : St} {q : Loc → List Nat} {st : Nat → Nat} {N : Nat} {lim : Nat → Prop}
    {ex : Loc → Nat} (h : Inv s q st N lim ex) (L : Loc) (off : Nat) (hoff : off ∈ q L) :
    ∃ f s', removeItem f s L off = some s' ∧ Inv s' (prune q (goneR q off)) st N lim ex ∧
      Freed s s' (goneR q off) :=
  remove_of_purge (purge_ok N (N + 1)) s q st lim ex L off h hoff (fun _ => by omega)

/-! ## appending -/

theorem append_ok {s : St} {q : Loc → List Nat} {st : Nat → Nat} {N : Nat} {lim : Nat → Prop}
    {ex : Loc → Nat} (h : Inv s q st N lim ex) (L : Loc) (hL : Live s.mem L) (off : Nat) (e : Entry)
    (he : s.mem off = some e) (h0 : off ≠ 0) (hno : ∀ K, off ∉ q K) (hex : ex L = 0)
    (hst : e.typ = tList → ∀ o, L = .inner o → st o < st off) :
    ∃ s', listAppend s L off = some s' ∧ Inv s' (setQ q L (q L ++ [off])) st N lim ex ∧
      (∀ x, (s'.mem x).map info = (s.mem x).map info) := by
  have hhead := h.head L hL
  rw [hex] at hhead
  have conclude : ∀ s1 : St, listAppend s L off = some s1 →
      (∀ x, (s1.mem x).map info = (s.mem x).map info) →
      (∀ x, x ∉ q L → x ≠ off → s1.mem x = s.mem x) →
      (∀ K, K ≠ L → s1.heads K = s.heads K) →
      s1.heads L = ⟨hdOr (q L ++ [off]) 0, lastOr 0 (q L ++ [off]), (q L ++ [off]).length⟩ →
      Seg s1.mem 0 (q L ++ [off]) 0 →
      ∃ s', listAppend s L off = some s' ∧ Inv s' (setQ q L (q L ++ [off])) st N lim ex ∧
        (∀ x, (s'.mem x).map info = (s.mem x).map info) := by
    intro s1 h1 h2 h3 h4 h5 h6
    refine ⟨s1, h1, ?_, h2⟩
    apply inv_relink h L hL (q L ++ [off]) _ _ h2 _ h4 _ h6 (fun K _ => rfl)
    · intro x _ hx; exact List.mem_append_left _ hx
    · intro x hx; exact Or.inl hx
    · intro x hx
      rcases List.mem_append.1 hx with h' | h'
      · exact Or.inl h'
      · rw [List.mem_singleton] at h'
        subst h'
        refine Or.inr ⟨h0, hno, ?_⟩
        intro e' he' ht
        rw [he] at he'; injection he' with he'; subst he'
        exact hst ht
    · rw [List.nodup_append]
      refine ⟨h.nodup L, by simp, ?_⟩
      intro x hx y hy hxy
      rw [List.mem_singleton] at hy
      exact hno L (by rw [← hy, ← hxy]; exact hx)
    · intro x hx hx'
      exact h3 x hx (fun hh => hx' (by rw [hh]; simp))
    · rw [h5, hex]; rfl
  by_cases hq : q L = []
  · refine conclude ((s.setMem off (some { e with prev := 0, next := 0 })).setHead L ⟨off, off, 1⟩)
      ?_ ?_ ?_ ?_ ?_ ?_
    · simp only [listAppend, he]
      rw [if_pos (by rw [hhead, hq]; rfl)]
    · rw [setHead_mem, setMem_mem]; exact info_upd (e' := { e with prev := 0, next := 0 }) he rfl
    · intro x _ hx; rw [setHead_mem, setMem_mem]; exact upd_ne _ _ hx
    · intro K hK; rw [setHead_ne _ _ hK, setMem_heads]
    · rw [setHead_same, hq]; rfl
    · rw [setHead_mem, setMem_mem, hq]
      exact ⟨⟨_, upd_same _ _ _, rfl, rfl⟩, trivial⟩
  · have hhd : (s.heads L).head ≠ 0 := by
      rw [hhead]; exact h.nz L _ (hdOr_mem 0 _ hq)
    have htl : (s.heads L).tail = lastOr 0 (q L) := by rw [hhead]
    have htm := lastOr_mem 0 (q L) hq
    have hto : off ≠ lastOr 0 (q L) := fun hh => hno L (by rw [hh]; exact htm)
    obtain ⟨p, hp, hseg⟩ := seg_setNext off (q L) 0 0 hq (h.nodup L) (h.seg L)
    refine conclude (((s.setMem (lastOr 0 (q L)) (some { p with next := off })).setMem off
      (some { e with prev := lastOr 0 (q L), next := 0 })).setHead L
        ⟨(s.heads L).head, off, (s.heads L).count + 1⟩) ?_ ?_ ?_ ?_ ?_ ?_
    · simp only [listAppend, he]
      rw [if_neg hhd, htl, hp]
      simp only [setMem_mem]
      rw [upd_ne _ _ hto, he]
    · intro x
      rw [setHead_mem, setMem_mem, setMem_mem]
      have : upd s.mem (lastOr 0 (q L)) (some { p with next := off }) off = some e := by
        rw [upd_ne _ _ hto, he]
      refine (info_upd (e' := { e with prev := lastOr 0 (q L), next := 0 }) this rfl x).trans ?_
      exact info_upd (e' := { p with next := off }) hp rfl x
    · intro x hx hx'
      have : x ≠ lastOr 0 (q L) := fun hh => hx (hh ▸ htm)
      rw [setHead_mem, setMem_mem, setMem_mem, upd_ne _ _ hx', upd_ne _ _ this]
    · intro K hK; rw [setHead_ne _ _ hK]; rfl
    · rw [setHead_same, hhead, hdOr_append, lastOr_append]
      simp only [List.length_append, List.length_singleton, Nat.add_zero, lastOr]
      congr 1
      cases hh : q L with
      | nil => exact absurd hh hq
      | cons y l => rfl
    · rw [setHead_mem, setMem_mem, setMem_mem, seg_append]
      constructor
      · apply seg_congr _ _ _ _ hseg
        intro x hx
        exact upd_ne _ _ (fun hh => hno L (hh ▸ hx))
      · exact ⟨⟨_, upd_same _ _ _, rfl, rfl⟩, trivial⟩

/-- allocating an entry that is in no list -/
theorem alloc_ok {s : St} {q : Loc → List Nat} {st : Nat → Nat} {N : Nat} {lim : Nat → Prop}
    {ex : Loc → Nat} (h : Inv s q st N lim ex) (off typ cnt k : Nat) (hfree : s.mem off = none)
    (hex : ex (.inner off) = 0) :
    Inv ((s.setMem off (some ⟨0, 0, typ, cnt⟩)).setHead (.inner off) ⟨0, 0, 0⟩) q
      (fun x => if x = off then k else st x) (max N k) lim ex := by
  have hno : ∀ K, off ∉ q K := by
    intro K hm
    obtain ⟨e, he⟩ := seg_mem _ _ _ _ (h.seg K) hm
    rw [hfree] at he; cases he
  have hdead : ¬ Live s.mem (.inner off) := by
    rintro ⟨e, he, _⟩; rw [hfree] at he; cases he
  have hq0 := h.dead _ hdead
  have hne : ∀ K x, x ∈ q K → x ≠ off := fun K x hx hh => hno K (hh ▸ hx)
  refine ⟨?_, ?_, h.nz, h.disj, h.nodup, ?_, ?_, ?_, ?_⟩
  · intro K hK
    by_cases hKo : K = .inner off
    · subst hKo
      rw [setHead_same, hq0, hex]; rfl
    · rw [setHead_ne _ _ hKo, setMem_heads]
      apply h.head
      cases K with
      | metric i => trivial
      | inner o =>
        have : o ≠ off := fun hh => hKo (by rw [hh])
        simp only [Live, setHead_mem, setMem_mem, upd_ne _ _ this] at hK
        exact hK
  · intro K
    apply seg_congr _ _ _ _ (h.seg K)
    intro x hx
    exact upd_ne _ _ (hne K x hx)
  · intro K hK
    by_cases hKo : K = .inner off
    · subst hKo; exact hq0
    · apply h.dead
      intro hl
      apply hK
      cases K with
      | metric i => trivial
      | inner o =>
        have : o ≠ off := fun hh => hKo (by rw [hh])
        simp only [Live, setHead_mem, setMem_mem, upd_ne _ _ this]
        exact hl
  · intro o x e hx he ht
    have hxo := hne _ x hx
    have hoo : o ≠ off := by
      rintro rfl
      rw [hq0] at hx; cases hx
    rw [setHead_mem, setMem_mem, upd_ne _ _ hxo] at he
    simp only [if_neg hxo, if_neg hoo]
    exact h.up o x e hx he ht
  · intro x
    show (if x = off then k else st x) ≤ _
    have := h.bnd x
    split <;> omega
  · intro x e he ht hl hxn
    by_cases hx : x = off
    · subst hx
      rw [setHead_mem, setMem_mem, upd_same] at he
      injection he with he; subst he; exact ⟨rfl, rfl⟩
    · rw [setHead_mem, setMem_mem, upd_ne _ _ hx] at he
      exact h.loose x e he ht hl hxn

/-- only the heads of lists matter -/
theorem inv_heads {s s' : St} {q : Loc → List Nat} {st : Nat → Nat} {N : Nat} {lim : Nat → Prop}
    {ex : Loc → Nat} (h : Inv s q st N lim ex) (hm : s'.mem = s.mem)
    (hh : ∀ L, Live s.mem L → s'.heads L = s.heads L) : Inv s' q st N lim ex := by
  obtain ⟨a1, a2, a3, a4, a5, a6, a7, a8, a9⟩ := h
  rw [← hm] at *
  exact ⟨fun L hL => by rw [hh L hL]; exact a1 L hL, a2, a3, a4, a5, a6, a7, a8, a9⟩

theorem visit_ok {s : St} : ∀ (l : List Nat) (p : Nat), Seg s.mem p l 0 → (∀ x ∈ l, x ≠ 0) →
    visit s (l.length + 1) (hdOr l 0) =
      some (l.map fun x => (x, ((s.mem x).map info).getD (0, 0))) := by
  intro l
  induction l with
  | nil => intro p _ _; rfl
  | cons x l ih =>
    intro p hs h0
    obtain ⟨⟨e, h1, h2, h3⟩, h4⟩ := hs
    have hx : x ≠ 0 := h0 x (List.mem_cons_self ..)
    have hi := ih x h4 (fun y hy => h0 y (List.mem_cons_of_mem _ hy))
    show visit s (l.length + 1 + 1) x = _
    rw [visit, if_neg hx, h1]
    simp only
    rw [h3, hi]
    simp [h1, info]

end Verif.LList
