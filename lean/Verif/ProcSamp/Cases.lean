import Verif.ProcSamp.LoadProps
import Verif.ProcSamp.Faults

/-!
# C81: concrete cases

Files, commands and states that meet the hypotheses of the theorems, and what happens with them.
-/

namespace Verif.ProcSamp

private def b (s : String) : Str := s.toList.map Char.toNat

/-- two rows as `/proc/meminfo` has them -/
theorem case_row {w d : Str} {v : Nat} (h1 : Word w) (h2 : Decimal d v) (h3 : v < 2 ^ 64) (hl : w.length + d.length ≤ 200) : Row (w ++ [32, 32] ++ d ++ b " kB" ++ [10]) (w, v) :=
  ⟨[], [32, 32], d, b " kB", by simp, by simp [Blank], h1, by simp [Blank], by simp, h2, h3, by simp [b, NoDigit], by decide, by
    simp [b]; omega⟩

private def file1 : Str := b "MemTotal:  16 kB\nMemFree:  7 kB\n"
private def file2 : Str := b "MemTotal:  16 kB\nMemFree:  5 kB\n"
private def file3 : Str := b "MemTotal:  16 kB\nCached:  5 kB\n"
private def args (f : Option Str) (i : Option Str) : Args := { hasSet := false, complete := true, componentId := 9, setErr := 0, ifaces := i, file := f }

private theorem dec16 : Decimal (b "16") 16 := Decimal.more (d := [49]) (v := 1) (c := 54) (Decimal.one (c := 49) (by decide) (by decide)) (by decide) (by decide)
private theorem dec1 {c : Nat} (h1 : 48 ≤ c) (h2 : c ≤ 57) : Decimal [c] (c - 48) := Decimal.one h1 h2

private theorem word_iff {w : Str} (h : (w ≠ [] ∧ ∀ c ∈ w, 33 ≤ c ∧ c ≤ 126)) : Word w := h

theorem says1 : Says file1 [(b "MemTotal:", 16), (b "MemFree:", 7)] :=
  ⟨[b "MemTotal:" ++ [32, 32] ++ b "16" ++ b " kB" ++ [10], b "MemFree:" ++ [32, 32] ++ [55] ++ b " kB" ++ [10]], by decide,
    .cons (case_row (word_iff (by decide)) dec16 (by decide) (by decide)) (.cons (case_row (v := 55 - 48) (word_iff (by decide)) (dec1 (by decide) (by decide)) (by decide) (by decide)) .nil)⟩

theorem says2 : Says file2 [(b "MemTotal:", 16), (b "MemFree:", 5)] :=
  ⟨[b "MemTotal:" ++ [32, 32] ++ b "16" ++ b " kB" ++ [10], b "MemFree:" ++ [32, 32] ++ [53] ++ b " kB" ++ [10]], by decide,
    .cons (case_row (word_iff (by decide)) dec16 (by decide) (by decide)) (.cons (case_row (v := 53 - 48) (word_iff (by decide)) (dec1 (by decide) (by decide)) (by decide) (by decide)) .nil)⟩

theorem says3 : Says file3 [(b "MemTotal:", 16), (b "Cached:", 5)] :=
  ⟨[b "MemTotal:" ++ [32, 32] ++ b "16" ++ b " kB" ++ [10], b "Cached:" ++ [32, 32] ++ [53] ++ b " kB" ++ [10]], by decide,
    .cons (case_row (word_iff (by decide)) dec16 (by decide) (by decide)) (.cons (case_row (v := 53 - 48) (word_iff (by decide)) (dec1 (by decide) (by decide)) (by decide) (by decide)) .nil)⟩

/-- the hypotheses of `mem_faithful` are met, and of its conclusion -/
example : ∃ q, config memCreate ⟨.null, none⟩ (args (some file1) none) = .ok (0, q) ∧
    ∃ r s, after memSample q [file1, file2] = .ok r ∧ r.set = some s ∧ Holds s (b "MemFree") 5 ∧ Holds s (b "component_id") 9 := by
  have hl : List.Forall₂ (fun (r : Str × Nat) n => Label r.1 n) [(b "MemTotal:", 16), (b "MemFree:", 7)] [b "MemTotal", b "MemFree"] :=
    .cons (.inl (by decide)) (.cons (.inl (by decide)) .nil)
  obtain ⟨q, h1, h2⟩ := mem_faithful (p := ⟨.null, none⟩) (a := args (some file1) none) rfl ⟨rfl, rfl, rfl, rfl⟩ says1 hl (by decide) (by unfold OfBase; decide)
  obtain ⟨r, s, h3, h4, -, -, h5, h6⟩ := h2 [file1, file2] (by
    intro f hf
    simp only [List.mem_cons, List.not_mem_nil, or_false] at hf
    rcases hf with rfl | rfl
    · exact ⟨_, says1, rfl⟩
    · exact ⟨_, says2, rfl⟩)
  exact ⟨q, h1, r, s, h3, h4, (h6 file2 _ rfl says2 rfl).2 (b "MemFree:") 5 (b "MemFree") (by simp) (.inl (by decide)), h5⟩

/-- **C81, defect.**  The values go by position: when the names in the file change, a metric gets the value of another row.  Here `MemFree` is given what the
file says of `Cached`. -/
theorem wrong_row_defect : ∃ q r s, config memCreate ⟨.null, none⟩ (args (some file1) none) = .ok (0, q) ∧ Says file3 [(b "MemTotal:", 16), (b "Cached:", 5)] ∧
    memSample q file3 = .ok (0, r) ∧ r.set = some s ∧ s.consistent = true ∧ Holds s (b "MemFree") 5 := by
  refine ⟨⟨.live, some (newSet 9 (baseNames ++ [b "MemTotal", b "MemFree"]))⟩, ⟨.live, some ⟨baseNames ++ [b "MemTotal", b "MemFree"], [9, 0, 0, 16, 5], true⟩⟩,
    ⟨baseNames ++ [b "MemTotal", b "MemFree"], [9, 0, 0, 16, 5], true⟩, by decide +kernel, says3, by decide +kernel, rfl, rfl, 4, by decide, rfl⟩

/-- `more_lines_defect`: one row more than at `config` -/
example : ∃ q, config memCreate ⟨.null, none⟩ (args (some (b "A: 1\n")) none) = .ok (0, q) ∧ memSample q file1 = .error .abort := by
  refine ⟨⟨.live, some (newSet 9 (baseNames ++ [b "A"]))⟩, by decide +kernel, by decide +kernel⟩

/-! ### interfaces -/

private def row16 : Str := b " 1 2 3 4 5 6 7 8 1 2 3 4 5 6 7 9"
private def net : Str := b "Inter-|\n face |\n    lo:" ++ row16 ++ b "\n  eth0:" ++ row16 ++ b "\n"
private def vs16 : List Nat := [1, 2, 3, 4, 5, 6, 7, 8, 1, 2, 3, 4, 5, 6, 7, 9]

private theorem nums16 : ∀ {vs : List Nat}, (∀ v ∈ vs, v < 10) → Numbers (vs.flatMap fun v => [32, v + 48]) vs
  | [], _ => .nil trivial (by simp)
  | v :: vs, h => by
    have hv := h v (by simp)
    have := Numbers.cons (b := [32]) (d := [v + 48]) (v := v + 48 - 48) (by simp [Blank]) (by simp) (dec1 (by omega) (by omega)) (by omega)
      (r := vs.flatMap fun v => [32, v + 48]) (by cases vs <;> simp [NoDigit]) (nums16 fun x hx => h x (by simp [hx]))
    simpa using this

theorem net_case : NetSays net [(b "lo", vs16), (b "eth0", vs16)] := by
  have hn : Numbers row16 vs16 := by
    have : row16 = vs16.flatMap fun v => [32, v + 48] := by decide
    rw [this]
    exact nums16 (by decide)
  refine ⟨b "Inter-|\n", b " face |\n", [b "    lo:" ++ row16 ++ b "\n", b "  eth0:" ++ row16 ++ b "\n"], by decide +kernel, ⟨b "Inter-|", by decide, by decide, by decide⟩,
    ⟨b " face |", by decide, by decide, by decide⟩, ?_⟩
  refine .cons ⟨b "    ", row16, by decide +kernel, by unfold Blank; decide, word_iff (by decide), by decide, hn, rfl, by decide +kernel⟩
    (.cons ⟨b "  ", row16, by decide +kernel, by unfold Blank; decide, word_iff (by decide), by decide, hn, rfl, by decide +kernel⟩ .nil)

/-- the hypotheses of `nd_faithful` are met -/
example : ∃ q, ndConfig ⟨[], .null, none⟩ (args (some net) (some (b "eth0,ib0"))) = .ok (0, q) ∧
    ∃ s', ndSample q net = .ok (0, { q with set := some s' }) ∧ Holds s' (b "tx_compressed#eth0") 9 := by
  have hx : Names 19 [b "eth0", b "ib0"] := by
    refine ⟨by decide, ?_⟩
    intro x hx
    simp only [List.mem_cons, List.not_mem_nil, or_false] at hx
    rcases hx with rfl | rfl <;> exact ⟨word_iff (by decide), by decide, by decide⟩
  obtain ⟨q, h1, h2⟩ := nd_faithful (a := args (some net) (some (b "eth0,ib0"))) (f0 := net) (xs := [b "eth0", b "ib0"]) ⟨rfl, rfl, rfl, rfl⟩ (by decide) hx (by decide) (by decide)
  obtain ⟨r, s, h3, -, -, -, -, h4⟩ := h2 [] (by simp)
  cases h3
  obtain ⟨s', h5, -, -, h6, -⟩ := h4 net _ net_case ⟨by decide, by decide⟩
  exact ⟨q, h1, s', h5, h6 (b "eth0") (by simp) vs16 (by simp) 15 (b "tx_compressed") 9 (by decide) (by decide)⟩

/-- the hypotheses of `nd2_faithful` are met, with and without names -/
example : ∃ q, nd2Config ⟨[], .null, none⟩ (args (some net) none) = .ok (0, q) ∧ ∃ s, nd2Sample q (List.replicate 3 net) = .ok (0, some s) ∧
    s.recs = [(b "lo", vs16), (b "eth0", vs16)] := by
  obtain ⟨q, h1, h2⟩ := nd2_faithful (a := args (some net) none) (f0 := net) (xs := none) ⟨rfl, rfl, rfl, rfl⟩ rfl (by simp)
  obtain ⟨s, h3, -, h4⟩ := h2 net _ net_case (by decide) 3 (by decide)
  exact ⟨q, h1, s, h3, by simpa using h4⟩

example : ∃ q, nd2Config ⟨[], .null, none⟩ (args (some net) (some (b "eth0"))) = .ok (0, q) ∧ ∃ s, nd2Sample q (List.replicate 3 net) = .ok (0, some s) ∧
    s.recs = [(b "eth0", vs16)] := by
  obtain ⟨q, h1, h2⟩ := nd2_faithful (a := args (some net) (some (b "eth0"))) (f0 := net) (xs := some [b "eth0"]) ⟨rfl, rfl, rfl, rfl⟩ (by decide) (by
    intro l hl
    cases hl
    refine ⟨⟨by decide, ?_⟩, by decide, by decide⟩
    intro x hx
    simp only [List.mem_cons, List.not_mem_nil, or_false] at hx
    subst hx
    exact ⟨word_iff (by decide), by decide, by decide⟩)
  obtain ⟨s, h3, -, h4⟩ := h2 net _ net_case (by decide) 3 (by decide)
  refine ⟨q, h1, s, h3, ?_⟩
  rw [h4]
  have e : ∀ x : Str, (∀ l, some [b "eth0"] = some l → x ∈ l) ↔ x = b "eth0" := by intro x; simp
  simp only [e]
  decide +kernel

/-- a file that cannot be opened, and then a command without names: `nd_twice_defect`, `nd2_failed_defect` -/
example : ndConfig ⟨[], .null, none⟩ (args none (some (b "eth0"))) = .ok (2, ⟨[b "eth0"], .dangling, none⟩) ∧
    ndConfig ⟨[b "eth0"], .dangling, none⟩ (args none none) = .error .freed := by decide +kernel

/-! ### loadavg -/

example : ∃ sch, (laConfig la0 false (some (b "load5min,newest_pid"))).2 = .ok sch ∧ (laConfig la0 false (some (b "load5min,newest_pid"))).1.flags = [false, true, false, false, false, true] :=
  ⟨b "loadavg010001", by decide, by decide⟩

example : laMetrics [false, true, false, false, false, true] = [b "load5min", b "newest_pid"] ∧
    laValues (fun v => 100 * v) true [false, true, false, false, false, true] [1, 2, 3, 4, 5, 6] = [200, 6] := by decide

end Verif.ProcSamp
