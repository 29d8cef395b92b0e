import Verif.Alloc.Core
import Verif.Rbt.Lookup

/-! Helper lemmas for the shared chunk allocator. -/

namespace Verif.Alloc

open Verif.Rbt

/-- a tagged chunk: `true` is free -/
abbrev Cell := Bool × Chunk

/-- `Tile P a cs b`: the chunks `cs` follow each other without gap from byte `a` to byte `b`. -/
def Tile (P : Params) : Nat → List Cell → Nat → Prop
  | a, [], b => a = b
  | a, c :: cs, b => c.2.start = a ∧ 0 < c.2.count ∧ Tile P (c.2.fin P) cs b

/-- no two neighbouring free chunks -/
def NoAdj : List Cell → Prop
  | [] => True
  | [_] => True
  | c :: d :: cs => ¬ (c.1 = true ∧ d.1 = true) ∧ NoAdj (d :: cs)

def freeOf (cs : List Cell) : List Chunk := (cs.filter (·.1)).map (·.2)
def liveOf (cs : List Cell) : List Chunk := (cs.filter (fun c => !c.1)).map (·.2)

theorem Tile.append {P : Params} : ∀ {as bs : List Cell} {a b : Nat},
    Tile P a (as ++ bs) b ↔ ∃ m, Tile P a as m ∧ Tile P m bs b := by
  intro as
  induction as with
  | nil => intro bs a b; simp [Tile]
  | cons c as ih =>
    intro bs a b
    simp only [List.cons_append, Tile, ih]
    constructor
    · rintro ⟨h1, h2, m, h3, h4⟩; exact ⟨m, ⟨h1, h2, h3⟩, h4⟩
    · rintro ⟨m, ⟨h1, h2, h3⟩, h4⟩; exact ⟨h1, h2, m, h3, h4⟩

theorem Chunk.start_lt_fin (P : Params) (c : Chunk) (h : 0 < c.count) : c.start < c.fin P := by
  unfold Chunk.fin
  have : 0 < c.count * 2 ^ P.gbits := Nat.mul_pos h (Nat.two_pow_pos _)
  omega

theorem Tile.le {P : Params} : ∀ {cs : List Cell} {a b : Nat}, Tile P a cs b → a ≤ b := by
  intro cs
  induction cs with
  | nil => intro a b h; simp [Tile] at h; omega
  | cons c cs ih =>
    intro a b h
    obtain ⟨h1, h2, h3⟩ := h
    have := ih h3
    have := c.2.start_lt_fin P h2
    omega

theorem Tile.bounds {P : Params} : ∀ {cs : List Cell} {a b : Nat}, Tile P a cs b →
    ∀ c ∈ cs, a ≤ c.2.start ∧ c.2.fin P ≤ b ∧ 0 < c.2.count := by
  intro cs
  induction cs with
  | nil => intro a b _ c hc; simp at hc
  | cons d cs ih =>
    intro a b h c hc
    obtain ⟨h1, h2, h3⟩ := h
    have hd := d.2.start_lt_fin P h2
    rcases List.mem_cons.1 hc with rfl | hc
    · exact ⟨by omega, h3.le, h2⟩
    · obtain ⟨p, q, r⟩ := ih h3 c hc
      exact ⟨by omega, q, r⟩

theorem Tile.last {P : Params} {as : List Cell} {a m : Nat} {c : Cell}
    (h : Tile P a (as ++ [c]) m) : c.2.fin P = m := by
  rw [Tile.append] at h
  obtain ⟨k, _, h2⟩ := h
  simp [Tile] at h2
  exact h2.2.2

theorem Tile.ordered {P : Params} : ∀ {cs : List Cell} {a b : Nat}, Tile P a cs b →
    cs.Pairwise (fun c d => c.2.fin P ≤ d.2.start) := by
  intro cs
  induction cs with
  | nil => intro a b _; exact .nil
  | cons c cs ih =>
    intro a b h
    obtain ⟨h1, h2, h3⟩ := h
    refine List.pairwise_cons.2 ⟨?_, ih h3⟩
    intro d hd
    exact (h3.bounds d hd).1

theorem freeOf_append (a b : List Cell) : freeOf (a ++ b) = freeOf a ++ freeOf b := by
  simp [freeOf]
theorem liveOf_append (a b : List Cell) : liveOf (a ++ b) = liveOf a ++ liveOf b := by
  simp [liveOf]
@[simp] theorem freeOf_cons_free (c : Chunk) (b : List Cell) :
    freeOf ((true, c) :: b) = c :: freeOf b := by simp [freeOf]
@[simp] theorem freeOf_cons_live (c : Chunk) (b : List Cell) :
    freeOf ((false, c) :: b) = freeOf b := by simp [freeOf]
@[simp] theorem liveOf_cons_free (c : Chunk) (b : List Cell) :
    liveOf ((true, c) :: b) = liveOf b := by simp [liveOf]
@[simp] theorem liveOf_cons_live (c : Chunk) (b : List Cell) :
    liveOf ((false, c) :: b) = c :: liveOf b := by simp [liveOf]
@[simp] theorem freeOf_nil : freeOf [] = [] := rfl
@[simp] theorem liveOf_nil : liveOf [] = [] := rfl

theorem mem_freeOf {cs : List Cell} {c : Chunk} : c ∈ freeOf cs ↔ (true, c) ∈ cs := by
  simp [freeOf]
theorem mem_liveOf {cs : List Cell} {c : Chunk} : c ∈ liveOf cs ↔ (false, c) ∈ cs := by
  simp [liveOf]

/-- comparator facts -/
theorem cmpAddr_lawful : LawfulCmp cmpAddr where
  anti := by intro a b; unfold cmpAddr; repeat (split; all_goals try omega)
             all_goals (first | omega | (split <;> omega))
  trans := by
    intro a b c; unfold cmpAddr
    intro h1 h2
    split at h1 <;> split at h2 <;> split <;> (try omega) <;> (split <;> omega)

theorem cmpAddr_nonneg {a b : Nat} : 0 ≤ cmpAddr a b ↔ b ≤ a := by
  unfold cmpAddr; split
  · omega
  · split <;> omega
theorem cmpAddr_nonpos {a b : Nat} : cmpAddr a b ≤ 0 ↔ a ≤ b := by
  unfold cmpAddr; split
  · omega
  · split <;> omega

/-- subtraction, the intended meaning of the size comparators -/
def subCmp (a b : Nat) : Int := (a : Int) - b

theorem subCmp_lawful : LawfulCmp subCmp where
  anti := by intro a b; unfold subCmp; omega
  trans := by intro a b c; unfold subCmp; omega

/-- `cmpS` has the sign of the subtraction below the bound `M` -/
def AgreesBelow (cmpS : Nat → Nat → Int) (M : Nat) : Prop :=
  ∀ a b, a < M → b < M → (0 < cmpS a b ↔ b < a) ∧ (cmpS a b < 0 ↔ a < b)

/-- The invariant tying the trees to a tiling of the region. -/
structure Inv (P : Params) (base fin M : Nat) (T : Trees) (all : List Cell) : Prop where
  tile : Tile P base all fin
  noadj : NoAdj all
  bound : ∀ c ∈ all, c.2.count < M
  hdrfit : P.hdr ≤ 2 ^ P.gbits
  limit : fin ≤ P.limit
  size : ∃ l, Coupled subCmp Chunk.count T.size l ∧ l.Perm (freeOf all)
  addr : ∃ l, Coupled cmpAddr Chunk.start T.addr l ∧ l.Perm (freeOf all)

theorem remove_ok {T : Trees} {ls la : List Chunk} {c : Chunk}
    (hs : Coupled subCmp Chunk.count T.size ls) (ha : Coupled cmpAddr Chunk.start T.addr la)
    (h1 : c ∈ ls) (h2 : c ∈ la) :
    ∃ T', remove T c = some T' ∧ Coupled subCmp Chunk.count T'.size (ls.erase c) ∧
      Coupled cmpAddr Chunk.start T'.addr (la.erase c) := by
  obtain ⟨s, e1, h3⟩ := coupled_del hs h1
  obtain ⟨a, e2, h4⟩ := coupled_del ha h2
  exact ⟨⟨s, a⟩, by simp [remove, e1, e2], h3, h4⟩

theorem insert_ok {cmpS : Nat → Nat → Int} {M : Nat} (hag : AgreesBelow cmpS M) {P : Params}
    {T : Trees} {ls la : List Chunk} {c : Chunk}
    (hs : Coupled subCmp Chunk.count T.size ls) (ha : Coupled cmpAddr Chunk.start T.addr la)
    (h1 : c ∉ ls) (h2 : c ∉ la) (hb : ∀ d ∈ ls, d.count < M) (hc : c.count < M)
    (hfit : c.start + P.hdr ≤ P.limit) :
    ∃ T', insert cmpS P T c = some T' ∧
      (∃ l, Coupled subCmp Chunk.count T'.size l ∧ l.Perm (c :: ls)) ∧
      (∃ l, Coupled cmpAddr Chunk.start T'.addr l ∧ l.Perm (c :: la)) := by
  obtain ⟨s, e1, h3⟩ := coupled_ins subCmp_lawful hs h1
  obtain ⟨a, e2, h4⟩ := coupled_ins cmpAddr_lawful ha h2
  have e1' : Rbt.ins cmpS Chunk.count T.size c = some s := by
    rw [← e1]
    apply ins_congr
    intro y hy
    rw [hs.list] at hy
    rw [(hag _ _ (hb y hy) hc).1]; unfold subCmp; omega
  refine ⟨⟨s, a⟩, ?_, ⟨_, h3, perm_insertSorted⟩, ⟨_, h4, perm_insertSorted⟩⟩
  have : ¬ (c.start + P.hdr > P.limit) := by omega
  simp [insert, e1', e2, this]

theorem tile_nodup {P : Params} {all : List Cell} {a b : Nat} (h : Tile P a all b) :
    (freeOf all).Nodup := by
  have ho := h.ordered
  have hb := h.bounds
  unfold freeOf List.Nodup
  rw [List.pairwise_map]
  apply List.Pairwise.imp_of_mem _ (ho.sublist List.filter_sublist)
  intro c d hc hd hle heq
  have h1 := (hb c (List.mem_filter.1 hc).1).2.2
  have := c.2.start_lt_fin P h1
  rw [heq] at hle this
  omega

theorem split_mem {cs : List Cell} {c : Cell} (h : c ∈ cs) : ∃ a b, cs = a ++ c :: b :=
  List.append_of_mem h

/-- all chunks strictly before / after a cell -/
theorem Tile.split {P : Params} {A B : List Cell} {c : Cell} {a b : Nat}
    (h : Tile P a (A ++ c :: B) b) :
    Tile P a A c.2.start ∧ Tile P (c.2.fin P) B b ∧ 0 < c.2.count ∧
    (∀ d ∈ A, d.2.fin P ≤ c.2.start) ∧ (∀ d ∈ B, c.2.fin P ≤ d.2.start) := by
  rw [Tile.append] at h
  obtain ⟨m, h1, h2, h3, h4⟩ := h
  subst h2
  exact ⟨h1, h4, h3, fun d hd => (h1.bounds d hd).2.1, fun d hd => (h4.bounds d hd).1⟩

theorem noadj_append {A B : List Cell} : NoAdj (A ++ B) ↔
    NoAdj A ∧ NoAdj B ∧ ∀ c d, A.getLast? = some c → B.head? = some d → ¬ (c.1 = true ∧ d.1 = true) := by
  induction A with
  | nil => simp [NoAdj]
  | cons c A ih =>
    cases A with
    | nil =>
      cases B with
      | nil => simp [NoAdj]
      | cons d B => simp [NoAdj]; grind
    | cons e A =>
      have e1 : (e :: A).getLast? = (c :: e :: A).getLast? := by simp [List.getLast?_cons]
      simp only [List.cons_append, NoAdj] at ih ⊢
      rw [ih, e1]
      grind

/-- finding the free chunk for a request -/
theorem findLub_size {cmpS : Nat → Nat → Int} {M : Nat} (hag : AgreesBelow cmpS M)
    {t : Rbt Chunk} {l : List Chunk} (h : Coupled subCmp Chunk.count t l)
    (hb : ∀ d ∈ l, d.count < M) {k : Nat} (hk : k < M) :
    (∃ p, findLub cmpS Chunk.count k t.root = some p ∧ p ∈ l ∧ k ≤ p.count ∧
      ∀ q ∈ l, k ≤ q.count → p.count ≤ q.count) ∨
    (findLub cmpS Chunk.count k t.root = none ∧ ∀ q ∈ l, q.count < k) := by
  have e : findLub cmpS Chunk.count k t.root = findLub subCmp Chunk.count k t.root := by
    apply findLub_congr
    intro x hx
    rw [h.list] at hx
    have := hag _ _ (hb x hx) hk
    unfold subCmp; omega
  have hs := findLubLoop_spec subCmp_lawful (k := k) t.root none (by rw [h.list]; exact h.sorted)
  rw [h.list] at hs
  rw [e]
  rcases hs with ⟨p, e1, h1, h2, h3⟩ | ⟨e1, h1⟩
  · left
    refine ⟨p, e1, h1, by unfold subCmp at h2; omega, ?_⟩
    intro q hq hk
    have := h3 q hq (by unfold subCmp; omega)
    unfold subCmp at this; omega
  · right
    refine ⟨e1, ?_⟩
    intro q hq
    have := h1 q hq
    unfold subCmp at this; omega

/-- The allocation step: either it fails and nothing was large enough, or it carves the request
from the front of a least sufficient free chunk. -/
theorem take_ok {cmpS : Nat → Nat → Int} {P : Params} {base fin M : Nat} {T : Trees}
    {all : List Cell} (hag : AgreesBelow cmpS M) (hM : M ≤ 2 ^ 64) (h : Inv P base fin M T all)
    {k : Nat} (hk0 : 0 < k) (hk : k < M) :
    (take cmpS P T k = some none ∧ ∀ c ∈ freeOf all, c.count < k) ∨
    (∃ A B p T', all = A ++ (true, p) :: B ∧ k ≤ p.count ∧
      (∀ q ∈ freeOf all, k ≤ q.count → p.count ≤ q.count) ∧
      take cmpS P T k = some (some (⟨p.start, k⟩, T')) ∧
      Inv P base fin M T' (A ++ (false, ⟨p.start, k⟩) ::
        (if p.count = k then [] else [(true, ⟨p.start + k * 2 ^ P.gbits, p.count - k⟩)]) ++ B)) := by
  obtain ⟨ls, hs, hls⟩ := h.size
  obtain ⟨la, ha, hla⟩ := h.addr
  have hbound : ∀ d ∈ ls, d.count < M := by
    intro d hd
    exact h.bound (true, d) (mem_freeOf.1 (hls.mem_iff.1 hd))
  rcases findLub_size hag hs hbound hk with ⟨p, e, hp, hkp, hmin⟩ | ⟨e, hall⟩
  · right
    have hpf : p ∈ freeOf all := hls.mem_iff.1 hp
    obtain ⟨A, B, hAB⟩ := split_mem (mem_freeOf.1 hpf)
    have hpM := hbound p hp
    obtain ⟨T1, eT1, hs1, ha1⟩ := remove_ok hs ha hp (hla.mem_iff.2 hpf)
    have htile := h.tile
    rw [hAB] at htile
    obtain ⟨tA, tB, hpos, hA, hB⟩ := htile.split
    simp only at tA tB hpos hA hB
    have hnoadj := h.noadj
    rw [hAB, noadj_append] at hnoadj
    obtain ⟨nA, nB, nAB⟩ := hnoadj
    have hrem : (p.count + 2 ^ 64 - k % 2 ^ 64) % 2 ^ 64 = p.count - k := by
      rw [Nat.mod_eq_of_lt (by omega : k < 2 ^ 64)]
      omega
    have hpermS : (ls.erase p).Perm (freeOf A ++ freeOf B) := by
      have h1 : ls.Perm (p :: (freeOf A ++ freeOf B)) := by
        refine hls.trans ?_
        rw [hAB, freeOf_append, freeOf_cons_free]; exact List.perm_middle
      have := h1.erase p
      simpa using this
    have hpermA : (la.erase p).Perm (freeOf A ++ freeOf B) := by
      have h1 : la.Perm (p :: (freeOf A ++ freeOf B)) := by
        refine hla.trans ?_
        rw [hAB, freeOf_append, freeOf_cons_free]; exact List.perm_middle
      have := h1.erase p
      simpa using this
    have hmin' : ∀ q ∈ freeOf all, k ≤ q.count → p.count ≤ q.count :=
      fun q hq => hmin q (hls.mem_iff.2 hq)
    have hfinp : p.start + k * 2 ^ P.gbits + (p.count - k) * 2 ^ P.gbits = p.fin P := by
      unfold Chunk.fin
      rw [Nat.add_assoc, ← Nat.add_mul]; congr 2; omega
    by_cases hz : p.count = k
    · refine ⟨A, B, p, T1, hAB, hkp, hmin', ?_, ?_⟩
      · have h0 : p.count - k = 0 := by omega
        rw [← hrem] at h0
        simp only [take, e, eT1, h0, if_true]
      · simp only [hz, if_true]
        refine ⟨?_, ?_, ?_, h.hdrfit, h.limit, ⟨_, hs1, ?_⟩, ⟨_, ha1, ?_⟩⟩
        · rw [List.append_assoc, Tile.append]
          refine ⟨p.start, tA, rfl, hk0, ?_⟩
          have : Chunk.fin P ⟨p.start, k⟩ = p.fin P := by unfold Chunk.fin; simp [hz]
          simpa [this] using tB
        · rw [List.append_assoc, noadj_append]
          refine ⟨nA, ?_, by simp⟩
          cases B with
          | nil => simp [NoAdj]
          | cons b B =>
            simp only [NoAdj, List.cons_append, List.nil_append] at nB ⊢
            simp at nB ⊢; exact nB.2
        · intro c hc
          simp at hc
          rcases hc with hc | rfl | hc
          · exact h.bound c (by rw [hAB]; simp [hc])
          · exact hk
          · exact h.bound c (by rw [hAB]; simp [hc])
        · simpa [freeOf_append] using hpermS
        · simpa [freeOf_append] using hpermA
    · have hne : ∀ c ∈ freeOf A ++ freeOf B, c.start ≠ p.start + k * 2 ^ P.gbits := by
        intro c hc heq
        have hkp' : 0 < k * 2 ^ P.gbits := Nat.mul_pos hk0 (Nat.two_pow_pos _)
        have hlt : 0 < (p.count - k) * 2 ^ P.gbits := Nat.mul_pos (by omega) (Nat.two_pow_pos _)
        rcases List.mem_append.1 hc with hc | hc
        · have h1 := hA _ (mem_freeOf.1 hc)
          have h2 := (tA.bounds _ (mem_freeOf.1 hc)).2.2
          have := c.start_lt_fin P h2
          simp at h1; omega
        · have h1 := hB _ (mem_freeOf.1 hc)
          simp at h1; omega
      have hfit : p.start + k * 2 ^ P.gbits + P.hdr ≤ P.limit := by
        have h1 := tB.le
        have h2 := h.limit
        have h3 := h.hdrfit
        have : 2 ^ P.gbits ≤ (p.count - k) * 2 ^ P.gbits := Nat.le_mul_of_pos_left _ (by omega)
        omega
      obtain ⟨T2, eT2, ⟨ls2, hs2, hls2⟩, ⟨la2, ha2, hla2⟩⟩ :=
        insert_ok (P := P) (c := ⟨p.start + k * 2 ^ P.gbits, p.count - k⟩) hag hs1 ha1
          (by intro hc; exact hne _ (hpermS.mem_iff.1 hc) rfl)
          (by intro hc; exact hne _ (hpermA.mem_iff.1 hc) rfl)
          (fun d hd => hbound d (List.mem_of_mem_erase hd)) (by simp; omega) hfit
      refine ⟨A, B, p, T2, hAB, hkp, hmin', ?_, ?_⟩
      · have : ¬ (p.count - k = 0) := by omega
        simp [take, e, eT1, hrem, this, eT2]
      · simp only [hz, if_false]
        refine ⟨?_, ?_, ?_, h.hdrfit, h.limit, ⟨_, hs2, ?_⟩, ⟨_, ha2, ?_⟩⟩
        · rw [List.append_assoc, Tile.append]
          refine ⟨p.start, tA, rfl, hk0, rfl, by simp; omega, ?_⟩
          simp only [List.append_eq, Chunk.fin, List.nil_append]
          rw [hfinp]; exact tB
        · rw [List.append_assoc, noadj_append]
          refine ⟨nA, ?_, by simp⟩
          cases B with
          | nil => simp [NoAdj]
          | cons b B =>
            simp only [NoAdj, List.cons_append, List.nil_append] at nB ⊢
            simp at nB ⊢; exact nB
        · intro c hc
          simp at hc
          rcases hc with hc | rfl | rfl | hc
          · exact h.bound c (by rw [hAB]; simp [hc])
          · exact hk
          · simp; omega
          · exact h.bound c (by rw [hAB]; simp [hc])
        · refine hls2.trans ?_
          simp [freeOf_append]
          exact (hpermS.cons _).trans List.perm_middle.symm
        · refine hla2.trans ?_
          simp [freeOf_append]
          exact (hpermA.cons _).trans List.perm_middle.symm
  · left
    refine ⟨by simp [take, e], ?_⟩
    intro c hc
    exact hall c (hls.mem_iff.2 hc)

theorem findGlb_addr {t : Rbt Chunk} {l : List Chunk} (h : Coupled cmpAddr Chunk.start t l) (k : Nat) :
    (∃ p, findGlb cmpAddr Chunk.start k t.root = some p ∧ p ∈ l ∧ p.start ≤ k ∧
      ∀ q ∈ l, q.start ≤ k → q.start ≤ p.start) ∨
    (findGlb cmpAddr Chunk.start k t.root = none ∧ ∀ q ∈ l, k < q.start) := by
  have hs := findGlbLoop_spec cmpAddr_lawful (k := k) t.root none (by rw [h.list]; exact h.sorted)
  rw [h.list] at hs
  rcases hs with ⟨p, e1, h1, h2, h3⟩ | ⟨e1, h1⟩
  · left
    refine ⟨p, e1, h1, cmpAddr_nonpos.1 h2, ?_⟩
    intro q hq hk
    exact cmpAddr_nonpos.1 (h3 q hq (cmpAddr_nonpos.2 hk))
  · right
    refine ⟨e1, ?_⟩
    intro q hq
    have := h1 q hq
    have h2 := @cmpAddr_nonpos q.start k
    omega

theorem findLub_addr {t : Rbt Chunk} {l : List Chunk} (h : Coupled cmpAddr Chunk.start t l) (k : Nat) :
    (∃ p, findLub cmpAddr Chunk.start k t.root = some p ∧ p ∈ l ∧ k ≤ p.start ∧
      ∀ q ∈ l, k ≤ q.start → p.start ≤ q.start) ∨
    (findLub cmpAddr Chunk.start k t.root = none ∧ ∀ q ∈ l, q.start < k) := by
  have hs := findLubLoop_spec cmpAddr_lawful (k := k) t.root none (by rw [h.list]; exact h.sorted)
  rw [h.list] at hs
  rcases hs with ⟨p, e1, h1, h2, h3⟩ | ⟨e1, h1⟩
  · left
    refine ⟨p, e1, h1, cmpAddr_nonneg.1 h2, ?_⟩
    intro q hq hk
    exact cmpAddr_nonpos.1 (h3 q hq (cmpAddr_nonneg.2 hk))
  · right
    refine ⟨e1, ?_⟩
    intro q hq
    have := h1 q hq
    have h2 := @cmpAddr_nonneg q.start k
    omega

/-- what the trees hold, without the tiling -/
def Holds (T : Trees) (fl : List Chunk) : Prop :=
  (∃ l, Coupled subCmp Chunk.count T.size l ∧ l.Perm fl) ∧
  (∃ l, Coupled cmpAddr Chunk.start T.addr l ∧ l.Perm fl)

theorem Holds.remove {T : Trees} {fl fl' : List Chunk} {c : Chunk} (h : Holds T fl)
    (hp : fl.Perm (c :: fl')) : ∃ T', Alloc.remove T c = some T' ∧ Holds T' fl' := by
  obtain ⟨⟨ls, hs, hls⟩, ⟨la, ha, hla⟩⟩ := h
  have h1 : c ∈ ls := (hls.trans hp).mem_iff.2 (by simp)
  have h2 : c ∈ la := (hla.trans hp).mem_iff.2 (by simp)
  obtain ⟨T', e, h3, h4⟩ := remove_ok hs ha h1 h2
  refine ⟨T', e, ⟨_, h3, ?_⟩, ⟨_, h4, ?_⟩⟩
  · simpa using (hls.trans hp).erase c
  · simpa using (hla.trans hp).erase c

/-- removing the last cell of a prefix -/
theorem eq_nil_or_snoc (A : List Cell) : A = [] ∨ ∃ A' c, A = A' ++ [c] := by
  rcases List.eq_nil_or_concat A with h | ⟨a, b, h⟩
  · exact .inl h
  · exact .inr ⟨a, b, by simpa using h⟩

theorem mergeLeft_ok {P : Params} {base fin : Nat} {T : Trees} {A B : List Cell} {p : Chunk}
    (ht : Tile P base (A ++ (false, p) :: B) fin)
    (hh : Holds T (freeOf A ++ freeOf B)) :
    (∃ A' q T', A = A' ++ [(true, q)] ∧ mergeLeft P T p = some (⟨q.start, q.count + p.count⟩, T') ∧
      Holds T' (freeOf A' ++ freeOf B)) ∨
    ((∀ A' q, A ≠ A' ++ [(true, q)]) ∧ mergeLeft P T p = some (p, T)) := by
  obtain ⟨tA, tB, hpos, hA, hB⟩ := ht.split
  simp only at tA tB hpos hA hB
  have hpf := p.start_lt_fin P hpos
  obtain ⟨_, ⟨la, ha, hla⟩⟩ := id hh
  have hmemA : ∀ q, q ∈ la → q.start ≤ p.start → q ∈ freeOf A := by
    intro q hq hle
    rcases List.mem_append.1 (hla.mem_iff.1 hq) with h | h
    · exact h
    · have := hB _ (mem_freeOf.1 h); simp at this; omega
  have key : ∀ A' (c : Cell), A = A' ++ [c] → ∀ q, (true, q) ∈ A' → q.fin P < p.start := by
    intro A' c hc q hq
    rw [hc] at tA
    obtain ⟨_, h2, h3, h4, _⟩ := tA.split
    have := h4 _ hq
    have h5 := c.2.start_lt_fin P h3
    have := h2.le
    simp at *; omega
  rcases eq_nil_or_snoc A with hnil | ⟨A', c, hc⟩
  · right
    refine ⟨by intro A' q h; simp [hnil] at h, ?_⟩
    rcases findGlb_addr ha p.start with ⟨q, e, h1, h2, h3⟩ | ⟨e, _⟩
    · exfalso
      have := hmemA q h1 h2
      simp [hnil] at this
    · simp [mergeLeft, e]
  · rcases c with ⟨b, c⟩
    have hcfin : c.fin P = p.start := by rw [hc] at tA; exact tA.last
    have hcpos : 0 < c.count := (tA.bounds (b, c) (by simp [hc])).2.2
    have hcs := c.start_lt_fin P hcpos
    cases b with
    | true =>
      left
      have hcl : c ∈ la := hla.mem_iff.2 (by simp [hc, freeOf_append])
      rcases findGlb_addr ha p.start with ⟨q, e, h1, h2, h3⟩ | ⟨_, h1⟩
      · have hqc : q = c := by
          have h4 := hmemA q h1 h2
          rw [hc, freeOf_append] at h4
          rcases List.mem_append.1 h4 with h4 | h4
          · exfalso
            have h5 := key _ _ hc q (mem_freeOf.1 h4)
            have h6 := h3 c hcl (by omega)
            have h7 : q.fin P ≤ c.start := by
              rw [hc] at tA
              exact tA.split.2.2.2.1 _ (mem_freeOf.1 h4)
            have h8 := (tA.bounds (true, q) (by simp [hc, mem_freeOf.1 h4])).2.2
            have := q.start_lt_fin P h8
            omega
          · simpa using h4
        subst hqc
        have hperm : (freeOf A ++ freeOf B).Perm (q :: (freeOf A' ++ freeOf B)) := by
          rw [hc, freeOf_append]; simp
        obtain ⟨T', eT, hT⟩ := hh.remove hperm
        exact ⟨A', q, T', hc, by simp [mergeLeft, e, hcfin, eT], hT⟩
      · have := h1 c hcl; omega
    | false =>
      right
      refine ⟨by intro A'' q h; rw [hc] at h; have := List.append_inj' h rfl; simp at this, ?_⟩
      rcases findGlb_addr ha p.start with ⟨q, e, h1, h2, h3⟩ | ⟨e, _⟩
      · have h4 := hmemA q h1 h2
        have h5 : (true, q) ∈ A' := by
          have := mem_freeOf.1 h4; rw [hc] at this; simpa using this
        have := key _ _ hc q h5
        have hne : ¬ (q.fin P = p.start) := by omega
        simp [mergeLeft, e, hne]
      · simp [mergeLeft, e]

theorem mergeRight_ok {P : Params} {base fin : Nat} {T : Trees} {A B : List Cell} {p : Chunk}
    (ht : Tile P base (A ++ (false, p) :: B) fin)
    (hh : Holds T (freeOf A ++ freeOf B)) :
    (∃ B' q T', B = (true, q) :: B' ∧ mergeRight P T p = some (⟨p.start, p.count + q.count⟩, T') ∧
      Holds T' (freeOf A ++ freeOf B')) ∨
    ((∀ B' q, B ≠ (true, q) :: B') ∧ mergeRight P T p = some (p, T)) := by
  obtain ⟨tA, tB, hpos, hA, hB⟩ := ht.split
  simp only at tA tB hpos hA hB
  have hpf := p.start_lt_fin P hpos
  obtain ⟨_, ⟨la, ha, hla⟩⟩ := id hh
  have hmemB : ∀ q, q ∈ la → p.start ≤ q.start → q ∈ freeOf B := by
    intro q hq hle
    rcases List.mem_append.1 (hla.mem_iff.1 hq) with h | h
    · have h1 := hA _ (mem_freeOf.1 h)
      have h2 := (tA.bounds _ (mem_freeOf.1 h)).2.2
      have := q.start_lt_fin P h2
      simp at h1; omega
    · exact h
  cases B with
  | nil =>
    right
    refine ⟨by intro B' q h; simp at h, ?_⟩
    rcases findLub_addr ha p.start with ⟨q, e, h1, h2, h3⟩ | ⟨e, _⟩
    · exfalso
      have := hmemB q h1 h2
      simp at this
    · simp [mergeRight, e]
  | cons c B' =>
    rcases c with ⟨b, c⟩
    obtain ⟨hcst, hcpos, tB'⟩ := tB
    simp only at hcst hcpos tB'
    have hcs := c.start_lt_fin P hcpos
    cases b with
    | true =>
      left
      have hcl : c ∈ la := hla.mem_iff.2 (by simp)
      rcases findLub_addr ha p.start with ⟨q, e, h1, h2, h3⟩ | ⟨_, h1⟩
      · have hqc : q = c := by
          have h4 := hmemB q h1 h2
          simp at h4
          rcases h4 with h4 | h4
          · exact h4
          · have h5 := (tB'.bounds _ (mem_freeOf.1 h4)).1
            have h6 := h3 c hcl (by omega)
            simp at h5; omega
        subst hqc
        have hperm : (freeOf A ++ freeOf ((true, q) :: B')).Perm (q :: (freeOf A ++ freeOf B')) := by
          simp
        obtain ⟨T', eT, hT⟩ := hh.remove hperm
        exact ⟨B', q, T', rfl, by simp [mergeRight, e, hcst, eT], hT⟩
      · have := h1 c hcl; omega
    | false =>
      right
      refine ⟨by intro B'' q h; simp at h, ?_⟩
      rcases findLub_addr ha p.start with ⟨q, e, h1, h2, h3⟩ | ⟨e, _⟩
      · have h4 := hmemB q h1 h2
        simp at h4
        have h5 := (tB'.bounds _ (mem_freeOf.1 h4)).1
        simp at h5
        have hne : ¬ (p.fin P = q.start) := by omega
        simp [mergeRight, e, hne]
      · simp [mergeRight, e]

/-- Freeing a live chunk: it is merged with its free neighbours, if any, and becomes free. -/
theorem give_ok {cmpS : Nat → Nat → Int} {P : Params} {base fin M N : Nat} {T : Trees}
    {A B : List Cell} {p : Chunk} (hag : AgreesBelow cmpS M)
    (hN : fin = base + N * 2 ^ P.gbits) (hNM : N < M)
    (h : Inv P base fin M T (A ++ (false, p) :: B)) :
    ∃ T' A' p' B', give cmpS P T p = some T' ∧
      liveOf (A' ++ (true, p') :: B') = liveOf A ++ liveOf B ∧ p.count ≤ p'.count ∧
      (A = A' ∨ ∃ q, A = A' ++ [(true, q)]) ∧ (B = B' ∨ ∃ q, B = (true, q) :: B') ∧
      Inv P base fin M T' (A' ++ (true, p') :: B') := by
  have hnoadj := h.noadj
  rw [noadj_append] at hnoadj
  obtain ⟨nA, nB, _⟩ := hnoadj
  have hh : Holds T (freeOf A ++ freeOf B) := by
    have h1 := h.size; have h2 := h.addr
    simp only [freeOf_append, freeOf_cons_live] at h1 h2
    exact ⟨h1, h2⟩
  -- left merge, normalised
  have left : ∃ A' p1 T1, p.count ≤ p1.count ∧ (A = A' ∨ ∃ q, A = A' ++ [(true, q)]) ∧ liveOf A' = liveOf A ∧
      mergeLeft P T p = some (p1, T1) ∧ Holds T1 (freeOf A' ++ freeOf B) ∧
      Tile P base (A' ++ (false, p1) :: B) fin ∧ NoAdj A' ∧
      (∀ A'' q, A' ≠ A'' ++ [(true, q)]) := by
    rcases mergeLeft_ok h.tile hh with ⟨A', q, T', hA, e, hT⟩ | ⟨hA, e⟩
    · refine ⟨A', _, T', by simp, .inr ⟨q, hA⟩, by simp [hA, liveOf_append], e, hT, ?_, ?_, ?_⟩
      · have ht := h.tile
        rw [hA] at ht
        simp only [List.append_assoc, List.cons_append, List.nil_append] at ht
        rw [Tile.append] at ht ⊢
        obtain ⟨m, h1, h2, h3, h4, h5, h6⟩ := ht
        refine ⟨m, h1, h2, by simp at h3 h5 ⊢; omega, ?_⟩
        have e2 : Chunk.fin P ⟨q.start, q.count + p.count⟩ = p.fin P := by
          simp only [Chunk.fin] at h4 ⊢
          rw [Nat.add_mul]; omega
        simp only [e2]; exact h6
      · rw [hA, noadj_append] at nA; exact nA.1
      · intro A'' q' hc
        rw [hA, noadj_append] at nA
        exact nA.2.2 (true, q') (true, q) (by simp [hc]) rfl ⟨rfl, rfl⟩
    · exact ⟨A, p, T, Nat.le_refl _, .inl rfl, rfl, e, hh, h.tile, nA, hA⟩
  obtain ⟨A', p1, T1, hc1, hAA, hlA, e1, hT1, ht1, nA', hlast⟩ := left
  have right : ∃ B' p2 T2, p1.count ≤ p2.count ∧ (B = B' ∨ ∃ q, B = (true, q) :: B') ∧ liveOf B' = liveOf B ∧
      mergeRight P T1 p1 = some (p2, T2) ∧ Holds T2 (freeOf A' ++ freeOf B') ∧
      Tile P base (A' ++ (true, p2) :: B') fin ∧ NoAdj B' ∧
      (∀ B'' q, B' ≠ (true, q) :: B'') := by
    have nB' : NoAdj B := by
      have e : (false, p) :: B = [(false, p)] ++ B := rfl
      rw [e, noadj_append] at nB; exact nB.2.1
    rcases mergeRight_ok ht1 hT1 with ⟨B', q, T', hB, e, hT⟩ | ⟨hB, e⟩
    · refine ⟨B', _, T', by simp, .inr ⟨q, hB⟩, by simp [hB], e, hT, ?_, ?_, ?_⟩
      · have ht := ht1
        rw [hB] at ht
        rw [Tile.append] at ht ⊢
        obtain ⟨m, h1, h2, h3, h4, h5, h6⟩ := ht
        refine ⟨m, h1, h2, by simp at h3 h5 ⊢; omega, ?_⟩
        have e2 : Chunk.fin P ⟨p1.start, p1.count + q.count⟩ = q.fin P := by
          simp only [Chunk.fin] at h4 ⊢
          rw [Nat.add_mul]; omega
        simp only [e2]; exact h6
      · rw [hB] at nB'
        have e : (true, q) :: B' = [(true, q)] ++ B' := rfl
        rw [e, noadj_append] at nB'; exact nB'.2.1
      · intro B'' q' hc
        rw [hB, hc] at nB'
        exact nB'.1 ⟨rfl, rfl⟩
    · refine ⟨B, p1, T1, Nat.le_refl _, .inl rfl, rfl, e, hT1, ?_, nB', hB⟩
      rw [Tile.append] at ht1 ⊢
      exact ht1
  obtain ⟨B', p2, T2, hc2, hBB, hlB, e2, hT2, ht2, nB', hfirst⟩ := right
  obtain ⟨⟨ls, hs, hls⟩, ⟨la, ha, hla⟩⟩ := hT2
  obtain ⟨tA, tB, hpos, hA, hB⟩ := ht2.split
  simp only at tA tB hpos hA hB
  have hbnd : ∀ c ∈ A' ++ (true, p2) :: B', c.2.count < M := by
    intro c hc
    obtain ⟨b1, b2, _⟩ := ht2.bounds c hc
    have : c.2.count * 2 ^ P.gbits ≤ N * 2 ^ P.gbits := by unfold Chunk.fin at b2; omega
    have := Nat.le_of_mul_le_mul_right this (Nat.two_pow_pos _)
    omega
  have hpf := p2.start_lt_fin P hpos
  have hne : p2 ∉ freeOf A' ++ freeOf B' := by
    intro hc
    rcases List.mem_append.1 hc with hc | hc
    · have h1 := hA _ (mem_freeOf.1 hc); simp at h1; omega
    · have h1 := hB _ (mem_freeOf.1 hc); simp at h1; omega
  have hfit : p2.start + P.hdr ≤ P.limit := by
    have h1 := tB.le
    have h2 := h.limit
    have h3 := h.hdrfit
    have : 2 ^ P.gbits ≤ p2.count * 2 ^ P.gbits := Nat.le_mul_of_pos_left _ hpos
    unfold Chunk.fin at h1
    omega
  obtain ⟨T3, e3, ⟨ls3, hs3, hls3⟩, ⟨la3, ha3, hla3⟩⟩ := insert_ok (P := P) (c := p2) hag hs ha
    (fun hc => hne (hls.mem_iff.1 hc)) (fun hc => hne (hla.mem_iff.1 hc))
    (by
      intro d hd
      have : (true, d) ∈ A' ++ (true, p2) :: B' := by
        have := hls.mem_iff.1 hd
        rcases List.mem_append.1 this with h | h
        · simp [mem_freeOf.1 h]
        · simp [mem_freeOf.1 h]
      exact hbnd _ this)
    (hbnd (true, p2) (by simp)) hfit
  refine ⟨T3, A', p2, B', by simp [give, e1, e2, e3], by simp [liveOf_append, hlA, hlB],
    Nat.le_trans hc1 hc2, hAA, hBB, ht2, ?_,
    hbnd, h.hdrfit, h.limit, ⟨_, hs3, ?_⟩, ⟨_, ha3, ?_⟩⟩
  · rw [noadj_append]
    refine ⟨nA', ?_, ?_⟩
    · cases B' with
      | nil => simp [NoAdj]
      | cons b B' =>
        refine ⟨?_, nB'⟩
        rintro ⟨_, hb⟩
        exact hfirst B' b.2 (by rw [← hb])
    · rintro ⟨c1, c⟩ d hc hd ⟨h1, _⟩
      rcases eq_nil_or_snoc A' with hn | ⟨A'', c', hn⟩
      · simp [hn] at hc
      · rw [hn] at hc
        simp at hc
        subst hc
        simp at h1
        exact hlast A'' c (by rw [hn, h1])
  · refine hls3.trans ?_
    simp [freeOf_append]
    exact (hls.cons _).trans List.perm_middle.symm
  · refine hla3.trans ?_
    simp [freeOf_append]
    exact (hla.cons _).trans List.perm_middle.symm

theorem coupled_init' {κ : Type} {cmp : κ → κ → Int} {key : Chunk → κ} :
    Coupled cmp key Rbt.init [] := coupled_init _ _

/-- the initial state -/
theorem start_ok {cmpS : Nat → Nat → Int} {P : Params} {base M N : Nat}
    (hag : AgreesBelow cmpS M) (hNM : N < M) (hN0 : 0 < N) (hhdr : P.hdr ≤ 2 ^ P.gbits)
    (hlim : base + N * 2 ^ P.gbits ≤ P.limit) :
    ∃ T, start cmpS P ⟨base, N⟩ = some T ∧
      Inv P base (base + N * 2 ^ P.gbits) M T [(true, ⟨base, N⟩)] := by
  have hfit : base + P.hdr ≤ P.limit := by
    have : 2 ^ P.gbits ≤ N * 2 ^ P.gbits := Nat.le_mul_of_pos_left _ hN0
    omega
  obtain ⟨T, e, hs, ha⟩ := insert_ok (P := P) (T := ⟨Rbt.init, Rbt.init⟩) (c := ⟨base, N⟩) hag
    coupled_init' coupled_init' (by simp) (by simp) (by simp) hNM hfit
  refine ⟨T, e, ⟨rfl, hN0, rfl⟩, trivial, by simpa using hNM, hhdr, hlim, hs, ha⟩

theorem pairwise_sym_mem {α : Type} {R : α → α → Prop} (hs : ∀ a b, R a b → R b a) :
    ∀ {l : List α}, l.Pairwise R → ∀ {a b : α}, a ∈ l → b ∈ l → a ≠ b → R a b := by
  intro l
  induction l with
  | nil => intro _ a b ha; simp at ha
  | cons x l ih =>
    intro h a b ha hb hne
    rw [List.pairwise_cons] at h
    rcases List.mem_cons.1 ha with ha' | ha' <;> rcases List.mem_cons.1 hb with hb' | hb'
    · exact absurd (ha'.trans hb'.symm) hne
    · exact ha' ▸ h.1 _ hb'
    · exact hs _ _ (hb' ▸ h.1 _ ha')
    · exact ih h.2 ha' hb' hne

theorem tile_sum {P : Params} : ∀ {cs : List Cell} {a b : Nat}, Tile P a cs b →
    a + ((freeOf cs).map Chunk.count).sum * 2 ^ P.gbits +
      ((liveOf cs).map Chunk.count).sum * 2 ^ P.gbits = b := by
  intro cs
  induction cs with
  | nil => intro a b h; simp [Tile] at h; simp [h]
  | cons c cs ih =>
    rintro a b ⟨h1, _, h3⟩
    have := ih h3
    rcases c with ⟨t, c⟩
    simp only [Chunk.fin] at *
    cases t <;> simp [Nat.add_mul] <;> omega

theorem tile_aligned {P : Params} : ∀ {cs : List Cell} {a b : Nat}, Tile P a cs b →
    ∀ c ∈ cs, (c.2.start - a) % 2 ^ P.gbits = 0 := by
  intro cs
  induction cs with
  | nil => intro a b _ c hc; simp at hc
  | cons d cs ih =>
    rintro a b ⟨h1, h2, h3⟩ c hc
    rcases List.mem_cons.1 hc with rfl | hc
    · simp [h1]
    · have h4 := ih h3 c hc
      have h5 := (h3.bounds c hc).1
      have e : c.2.start - a = c.2.start - d.2.fin P + d.2.count * 2 ^ P.gbits := by
        unfold Chunk.fin at *; omega
      rw [e, Nat.add_mul_mod_self_right]; exact h4

theorem noadj_count : ∀ {cs : List Cell}, NoAdj cs →
    (freeOf cs).length ≤ (liveOf cs).length + (if (cs.head?.map (·.1)) = some true then 1 else 0)
  | [], _ => by simp
  | [(true, c)], _ => by simp
  | [(false, c)], _ => by simp
  | (true, c) :: (false, d) :: cs, h => by
    have := noadj_count (cs := (false, d) :: cs) h.2
    simp at this ⊢; omega
  | (false, c) :: d :: cs, h => by
    have := noadj_count (cs := d :: cs) h.2
    simp only [freeOf_cons_live, liveOf_cons_live, List.length_cons] at this ⊢
    split at this <;> simp at * <;> omega
  | (true, c) :: (true, d) :: cs, h => by simp [NoAdj] at h

theorem perm_sum {l l' : List Nat} (h : l.Perm l') : l.sum = l'.sum := by
  induction h with
  | nil => rfl
  | cons _ _ ih => simp [ih]
  | swap => simp; omega
  | trans _ _ ih1 ih2 => exact ih1.trans ih2

end Verif.Alloc
