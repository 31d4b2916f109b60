import Verif.Proofs.Shard
/-! Properties C06, C07, C08: sharding. -/
namespace CM.Props
open CM Spec

/-! ### C06 -/

/-- C06: the mutants selected by the shards `0/n .. (n-1)/n`, taken together, are a rearrangement of
the whole list: each occurrence of each mutant is selected by exactly one shard. -/
theorem C06_shards_partition {α} (n : Nat) (hn : 0 < n) (mutants : List α) :
    ∃ parts : List (List α),
      (List.range n).map (fun k => (Shard.mk k n).select mutants) = parts.map some ∧
      parts.flatten.Perm mutants := by
  refine ⟨(List.range n).map fun k => selFrom k n 0 mutants, ?_, ?_⟩
  · rw [List.map_map]
    apply List.map_congr_left
    intro k _
    exact select_eq (s := ⟨k, n⟩) hn mutants
  · rw [← List.flatMap_def]
    exact shards_perm hn mutants

/-- C06, by position: the mutant at index `i` is in shard `i % n` and at place `i / n` there, and
shard `k` has nothing else. -/
theorem C06_shard_members {α} (k n : Nat) (hk : k < n) (mutants : List α) :
    ∃ sel, (Shard.mk k n).select mutants = some sel ∧
      ∀ j, sel[j]? = mutants[k + j * n]? :=
  ⟨_, select_eq (s := ⟨k, n⟩) (by simp; omega) mutants, selFrom_zero_getElem? hk mutants⟩

example : (Shard.mk 0 3).select ["a", "b", "c", "d"] = some ["a", "d"] ∧
    (Shard.mk 1 3).select ["a", "b", "c", "d"] = some ["b"] ∧
    (Shard.mk 2 3).select ["a", "b", "c", "d"] = some ["c"] := by decide

/-! ### C07 -/

/-- C07: a shard keeps the order of the full list. -/
theorem C07_shard_order {α} (s : Shard) (mutants sel : List α) (h : s.select mutants = some sel) :
    sel.Sublist mutants := by
  by_cases hn : 0 < s.n
  · rw [select_eq hn] at h
    cases h
    exact selFrom_sublist _ _ _ _
  · unfold Shard.select at h
    split at h
    · cases h
    · rename_i hn'
      cases h
      exact selFrom_sublist s.k s.n 0 mutants

/-- C07: two shards of the same number differ in size by at most one. -/
theorem C07_shards_balanced {α} (n k k' : Nat) (hk : k < n) (hk' : k' < n) (mutants sel sel' : List α)
    (h : (Shard.mk k n).select mutants = some sel) (h' : (Shard.mk k' n).select mutants = some sel') :
    sel.length ≤ sel'.length + 1 := by
  rw [select_eq (by simp; omega)] at h h'
  cases h; cases h'
  rw [selFrom_length hk, selFrom_length hk', ← Nat.add_div_right _ (by omega : 0 < n)]
  apply Nat.div_le_div_right
  omega

example : ∃ sel sel', (Shard.mk 0 2).select [10, 11, 12] = some sel ∧
    (Shard.mk 1 2).select [10, 11, 12] = some sel' ∧ sel.length = 2 ∧ sel'.length = 1 :=
  ⟨[10, 12], [11], by decide⟩

/-! ### C08 -/

/-- C08: a shard argument is accepted exactly if it is `k/n` with `k < n`, and then read as that. -/
theorem C08_shard_argument (s : Text) (sh : Shard) :
    Shard.fromStr s = some sh ↔
      ∃ a b, s = a ++ "/".toList ++ b ∧ SignedDecimal a sh.k ∧ SignedDecimal b sh.n ∧
        sh.k < sh.n ∧ sh.n ≤ 18446744073709551615 := by
  show Shard.fromStr s = some sh ↔ ∃ a b, s = a ++ "/".toList ++ b ∧ SignedDecimal a sh.k ∧ SignedDecimal b sh.n ∧
    sh.k < sh.n ∧ sh.n ≤ usizeMax
  unfold Shard.fromStr
  constructor
  · intro h
    split at h
    · cases h
    · rename_i a b hs
      split at h
      · rename_i k n hk hn
        split at h
        · cases h
          obtain ⟨h1, h2⟩ := (splitOnce_iff _ _ _ _).1 hs
          obtain ⟨h3, h4⟩ := (parseUsize_iff _ _).1 hk
          obtain ⟨h5, h6⟩ := (parseUsize_iff _ _).1 hn
          exact ⟨a, b, by simp [h1], h3, h5, by assumption, h6⟩
        · cases h
      · cases h
  · rintro ⟨a, b, rfl, h1, h2, h3, h4⟩
    have hs : splitOnce '/' (a ++ "/".toList ++ b) = some (a, b) :=
      (splitOnce_iff _ _ _ _).2 ⟨by simp, signedDecimal_no_slash h1⟩
    have hk := (parseUsize_iff a sh.k).2 ⟨h1, by omega⟩
    have hn := (parseUsize_iff b sh.n).2 ⟨h2, h4⟩
    rw [hs]
    simp [hk, hn, h3]

/-- C08: selecting with an accepted shard never divides by zero. -/
theorem C08_accepted_shard_selects {α} (s : Text) (sh : Shard) (h : Shard.fromStr s = some sh)
    (mutants : List α) : (sh.select mutants).isSome := by
  obtain ⟨_, _, _, _, _, h, _⟩ := (C08_shard_argument s sh).1 h
  rw [select_eq (by omega)]
  rfl

example : Shard.fromStr "2/5".toList = some ⟨2, 5⟩ ∧ Shard.fromStr "5/5".toList = none ∧
    Shard.fromStr "0/0".toList = none ∧ Shard.fromStr "1/2/3".toList = none ∧
    Shard.fromStr "-1/2".toList = none ∧ Shard.fromStr "+1/02".toList = some ⟨1, 2⟩ := by
  decide +kernel

end CM.Props
