import Verif.Proofs.CopyTree
/-! C57: a copied tree equals the source tree except for the documented exclusions. -/
namespace CM.Props
open CM CM.Spec CM.Copy

theorem keepEntry_iff (o : Options) (ignored : Path → Bool → Bool) (p : Path) (n : Text) (b : Bool) :
    keepEntry o ignored p n b = true ↔
      ¬ (n ∈ neverCopied ∨ (n ∈ versionControl ∧ o.copyVcs = false) ∨ (o.gitignore = true ∧ ignored p b = true)) := by
  have hv : vcsDirs.contains n = true ↔ n ∈ versionControl := by
    simp only [List.contains_iff_mem, vcsDirs, versionControl, List.mem_cons, List.not_mem_nil, or_false]
    constructor <;> rintro (h | h | h | h | h | h | h) <;> simp [h]
  unfold keepEntry
  simp only [Bool.and_eq_true, Bool.not_eq_true', Bool.or_eq_true, bne_iff_ne, ne_eq, Bool.and_eq_false_iff, neverCopied, List.mem_cons,
    List.not_mem_nil, or_false]
  rw [← hv]
  cases o.gitignore <;> cases ignored p b <;> cases o.copyVcs <;> cases vcsDirs.contains n <;> simp

/-- **C57**: the copy can be made, and what it has at a path is what the source has there, except for
what is excluded (and sockets and the like). -/
theorem C57_copy (o : Options) (ignored : Path → Bool → Bool) (entries : Forest) (hp : Proper (.dir entries)) :
    ∃ d, copyTree o ignored (.dir entries) = some d ∧ ∀ p k, d p = some k ↔
      At (.dir entries) p k ∧ k ≠ .other ∧ ¬ Excluded o.copyVcs o.gitignore ignored (.dir entries) p := by
  cases hp with
  | dir hf =>
  have hmade : Made Dest.empty [] := by
    intro q hq
    rw [List.prefix_nil.1 hq]; rfl
  obtain ⟨d, hc, hin, hout⟩ := copy_forest (keepEntry o ignored) [] Dest.empty hmade entries hf (by
    intro n p _; rfl)
  refine ⟨d, ?_, ?_⟩
  · unfold copyTree walkTree
    show (Dest.createDirAll Dest.empty []).bind _ = _
    have : Dest.createDirAll Dest.empty [] = some Dest.empty := by
      unfold Dest.createDirAll
      rw [if_pos]
      · congr 1
        funext q
        by_cases hq : q ∈ prefixes []
        · rw [if_pos hq, List.prefix_nil.1 (mem_prefixes.1 hq)]; rfl
        · rw [if_neg hq]
      · intro q hq
        rw [List.prefix_nil.1 (mem_prefixes.1 hq)]
        exact .inr rfl
    rw [this]
    exact hc
  · intro p k
    have hl : d p = lookTree (keepEntry o ignored) [] (.dir entries) p := by
      cases p with
      | nil => exact hout [] fun n p e => by cases e
      | cons n p =>
        show d ([] ++ n :: p) = lookForest _ _ _ _ _
        by_cases he : ∃ t, Entry entries n t
        · exact hin n p he
        · rw [lookForest_none he, hout _ fun n' p' e => by cases e; exact he]
          rfl
    rw [hl, lookTree_iff _ _ _ (.dir hf)]
    refine and_congr_right fun hat => and_congr_right fun _ => ?_
    constructor
    · rintro h ⟨q, hq, q', n, rfl, hex⟩
      obtain ⟨k', hk'⟩ : ∃ k', At (.dir entries) (q' ++ [n]) k' := at_prefix hat hq
      have := (keepEntry_iff ..).1 (h q' n hq k' hk')
      apply this
      rcases hex with h1 | h1 | ⟨h1, k'', hk'', h2⟩
      · exact .inl h1
      · exact .inr (.inl h1)
      · cases at_unique (.dir hf) hk' hk''
        exact .inr (.inr ⟨h1, h2⟩)
    · intro h q n hq k' hk'
      rw [keepEntry_iff]
      intro hex
      refine h ⟨q ++ [n], hq, q, n, rfl, ?_⟩
      rcases hex with h1 | h1 | ⟨h1, h2⟩
      · exact .inl h1
      · exact .inr (.inl h1)
      · exact .inr (.inr ⟨h1, k', hk', h2⟩)

/-- Directories from a list, for examples. -/
def sampleDir : List (String × Tree) → Tree := fun l => .dir (l.foldr (fun (n, t) f => .cons n.toList t f) .nil)

/-- A tree with all kinds of entries. -/
def sampleSource : Tree := sampleDir
  [(".git", sampleDir [("HEAD", .file "h".toList)]), ("Cargo.toml", .file "c".toList), ("link", .symlink "src".toList),
   ("src", sampleDir [("lib.rs", .file "l".toList), ("mutants.out", sampleDir [("a", .file [])]), ("pipe", .other)]),
   ("target", sampleDir [("x", .file [])])]

/-- `target` is ignored. -/
def sampleIgnored (p : Path) (isDir : Bool) : Bool := isDir && p == ["target".toList]

example : ProperEntries (.cons "a".toList (.file []) (.cons "b".toList .other .nil)) :=
  .cons (.file _) (.cons .other .nil fun _ h => by cases h) fun _ h => by
    cases h with
    | there h => cases h

/-- What the copy has at some paths. -/
def sampleCopy (o : Options) : Option (List (Option Kind)) :=
  (copyTree o sampleIgnored sampleSource).map fun d =>
    [d [], d [".git".toList], d [".git".toList, "HEAD".toList], d ["Cargo.toml".toList], d ["link".toList], d ["src".toList],
     d ["src".toList, "lib.rs".toList], d ["src".toList, "mutants.out".toList], d ["src".toList, "mutants.out".toList, "a".toList],
     d ["src".toList, "pipe".toList], d ["target".toList], d ["target".toList, "x".toList], d ["link".toList, "lib.rs".toList]]

example : sampleCopy { gitignore := true } = some
    [some .dir, none, none, some (.file "c".toList), some (.symlink "src".toList), some .dir, some (.file "l".toList), none, none,
     none, none, none, none] := by decide +kernel
example : sampleCopy { gitignore := false, copyVcs := true } = some
    [some .dir, some .dir, some (.file "h".toList), some (.file "c".toList), some (.symlink "src".toList), some .dir,
     some (.file "l".toList), none, none, none, some .dir, some (.file []), none] := by decide +kernel

end CM.Props
