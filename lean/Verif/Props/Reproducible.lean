import Verif.Props.ListFiles
import Verif.Spec.Alphabet
import Verif.Proofs.Sort
/-! C104: the order in which mutants are found is alphabetical and does not depend on the order in which `cargo metadata`
lists packages and targets, or in which packages are named. -/
namespace CM.Props
open CM CM.Spec

theorem lexLe_prefix {α} [DecidableEq α] (lt : α → α → Bool) : ∀ a b : List α, lexLe lt a b = true →
    a <+: b ∨ ∃ p x y s t, a = p ++ x :: s ∧ b = p ++ y :: t ∧ x ≠ y ∧ lt x y = true
  | [], b, _ => .inl (List.nil_prefix)
  | _ :: _, [], h => by cases h
  | x :: xs, y :: ys, h => by
    unfold lexLe at h
    split at h
    · rename_i hxy
      subst hxy
      rcases lexLe_prefix lt xs ys h with h | ⟨p, a, b, s, t, h1, h2, h3, h4⟩
      · exact .inl (List.cons_prefix_cons.2 ⟨rfl, h⟩)
      · exact .inr ⟨x :: p, a, b, s, t, by rw [h1]; rfl, by rw [h2]; rfl, h3, h4⟩
    · rename_i hxy
      exact .inr ⟨[], x, y, xs, ys, rfl, rfl, hxy, h⟩

theorem dict_of_textLe {a b : Text} (h : textLe a b = true) : Dict a b := by
  rcases lexLe_prefix _ a b h with h | ⟨p, x, y, s, t, h1, h2, _, h4⟩
  · exact .inl h
  · exact .inr ⟨p, x, y, s, t, h1, h2, of_decide_eq_true h4⟩

theorem textLe_append (p a b : Text) : textLe (p ++ a) (p ++ b) = textLe a b := by
  induction p with
  | nil => rfl
  | cons x xs ih =>
    show lexLe _ (x :: (xs ++ a)) (x :: (xs ++ b)) = _
    unfold lexLe
    rw [if_pos rfl]
    exact ih

theorem textLe_iff (a b : Text) : textLe a b = true ↔ Dict a b := by
  refine ⟨dict_of_textLe, ?_⟩
  rintro (⟨t, rfl⟩ | ⟨p, x, y, s, t, rfl, rfl, h⟩)
  · have := textLe_append a [] t
    rw [List.append_nil] at this
    rw [this]; rfl
  · rw [textLe_append]
    show lexLe _ (x :: s) (y :: t) = true
    unfold lexLe
    rw [if_neg (by rintro rfl; omega)]
    exact decide_eq_true h

/-- The order of a dictionary is an order of all texts: of two texts one comes first, and only one unless they are the same. -/
theorem dict_order (a b : Text) : (Dict a b ∨ Dict b a) ∧ (Dict a b → Dict b a → a = b) ∧ ∀ c, Dict a b → Dict b c → Dict a c := by
  simp only [← textLe_iff]
  refine ⟨?_, textLe_antisymm a b, fun c => textLe_trans a b c⟩
  cases h : textLe a b with
  | true => exact .inl rfl
  | false => exact .inr (textLe_total a b h)

instance (a b : Text) : Decidable (Dict a b) := decidable_of_iff _ (textLe_iff a b)

example : Dict "cargo-mutants".toList "cargo_mutants".toList ∧ Dict "lib".toList "library".toList ∧
    ¬ Dict "b".toList "a".toList ∧ Dict "Z".toList "a".toList := by decide

theorem dictPath_of_pathLe {a b : Path} (h : pathLe a b = true) : DictPath a b := by
  rcases lexLe_prefix _ a b h with h | ⟨p, x, y, s, t, h1, h2, h3, h4⟩
  · exact .inl h
  · exact .inr ⟨p, x, y, s, t, h1, h2, h3, dict_of_textLe h4⟩

/-! ### One order for each set -/

/-- Two sorted lists of the same elements are the same, if no two of the elements are equal in the order. -/
theorem sorted_unique {α} (le : α → α → Bool) : ∀ (l l' : List α), l.Perm l' →
    (∀ a ∈ l, ∀ b ∈ l, le a b = true → le b a = true → a = b) →
    l.Pairwise (fun a b => le a b = true) → l'.Pairwise (fun a b => le a b = true) → l = l'
  | [], l', hp, _, _, _ => (List.nil_perm.1 hp).symm
  | x :: xs, [], hp, _, _, _ => by simp at hp
  | x :: xs, y :: ys, hp, anti, h, h' => by
    rw [List.pairwise_cons] at h h'
    have hxy : x = y := by
      have hy : y ∈ x :: xs := hp.mem_iff.2 (by simp)
      have hx : x ∈ y :: ys := hp.mem_iff.1 (by simp)
      rcases List.mem_cons.1 hy with rfl | hy
      · rfl
      rcases List.mem_cons.1 hx with rfl | hx
      · rfl
      exact anti x (by simp) y (by simp [hy]) (h.1 y hy) (h'.1 x hx)
    subst hxy
    rw [sorted_unique le xs ys (List.perm_cons x |>.1 hp)
      (fun a ha b hb => anti a (by simp [ha]) b (by simp [hb])) h.2 h'.2]

theorem sortBy_eq_of_perm {α} (le : α → α → Bool) (total : ∀ a b, le a b = false → le b a = true)
    (trans : ∀ a b c, le a b = true → le b c = true → le a c = true) {l l' : List α} (hp : l.Perm l')
    (anti : ∀ a ∈ l, ∀ b ∈ l, le a b = true → le b a = true → a = b) : sortBy le l = sortBy le l' :=
  sorted_unique le _ _ ((sortBy_perm le l).trans (hp.trans (sortBy_perm le l').symm))
    (fun a ha b hb => anti a ((mem_sortBy _ _ _).1 ha) b ((mem_sortBy _ _ _).1 hb))
    (sortBy_sorted le total trans l) (sortBy_sorted le total trans l')

theorem insertBy_map {α β} (le : β → β → Bool) (le' : α → α → Bool) (f : α → β) (h : ∀ a b, le (f a) (f b) = le' a b)
    (x : α) (l : List α) : insertBy le (f x) (l.map f) = (insertBy le' x l).map f := by
  induction l with
  | nil => rfl
  | cons y ys ih =>
    simp only [List.map_cons, insertBy, h]
    split
    · rfl
    · rw [ih]; rfl

theorem sortBy_map {α β} (le : β → β → Bool) (le' : α → α → Bool) (f : α → β) (h : ∀ a b, le (f a) (f b) = le' a b)
    (l : List α) : sortBy le (l.map f) = (sortBy le' l).map f := by
  induction l with
  | nil => rfl
  | cons x xs ih => rw [List.map_cons, sortBy, ih, insertBy_map le le' f h]; rfl

theorem sortNames {l l' : List Text} (hp : l.Perm l') : sortBy textLe l = sortBy textLe l' :=
  sortBy_eq_of_perm _ textLe_total textLe_trans hp fun a _ b _ => textLe_antisymm a b

theorem topSources_targets (root : Path) (p : PackageMeta) {ts : List Target} (hp : ts.Perm p.targets) :
    packageTopSources root { p with targets := ts } = packageTopSources root p := by
  unfold packageTopSources
  rw [sortBy_eq_of_perm _ pathLe_total pathLe_trans (hp.filterMap _) fun a _ b _ => pathLe_antisymm a b]

theorem fromMetadata_targets (root : Path) (p : PackageMeta) {ts : List Target} (hp : ts.Perm p.targets) :
    Package.fromMetadata { p with targets := ts } root = Package.fromMetadata p root := by
  unfold Package.fromMetadata
  rw [topSources_targets root p hp]

theorem filterMap_same {α β} (f g : α → Option β) (l : List α) (h : ∀ x ∈ l, f x = g x) : l.filterMap f = l.filterMap g := by
  induction l with
  | nil => rfl
  | cons x xs ih =>
    rw [List.filterMap_cons, List.filterMap_cons, h x (by simp), ih fun y hy => h y (by simp [hy])]

theorem packages_rearranged {m m' : Metadata} (h : Rearranged m m')
    (hn : ∀ p ∈ m.packages, ∀ q ∈ m.packages, p.name = q.name → p = q) : packagesFromMetadata m' = packagesFromMetadata m := by
  obtain ⟨targets, ht, hp⟩ := h.members
  unfold packagesFromMetadata
  rw [h.root]
  have h1 : sortBy (fun a b => textLe a.name b.name) m'.packages =
      (sortBy (fun a b : PackageMeta => textLe a.name b.name) m.packages).map fun p => { p with targets := targets p } := by
    rw [← sortBy_map (fun a b => textLe a.name b.name) (fun a b : PackageMeta => textLe a.name b.name) _ (fun _ _ => rfl)]
    refine sortBy_eq_of_perm (fun a b : PackageMeta => textLe a.name b.name) (fun a b => textLe_total _ _)
      (fun a b c => textLe_trans _ _ _) hp ?_
    intro a ha b hb h1 h2
    have hab := textLe_antisymm _ _ h1 h2
    obtain ⟨p, hpm, rfl⟩ := List.mem_map.1 (hp.mem_iff.1 ha)
    obtain ⟨q, hqm, rfl⟩ := List.mem_map.1 (hp.mem_iff.1 hb)
    rw [hn p hpm q hqm hab]
  rw [h1, List.filterMap_map]
  exact filterMap_same _ _ _ fun p hpm => fromMetadata_targets _ _ (ht p ((mem_sortBy _ _ _).1 hpm))

theorem byName_perm (w w' : Workspace) (hw : w'.packages = w.packages) {names names' : List Text} (hp : names'.Perm names) :
    w'.packagesByName names' = w.packagesByName names := by
  unfold Workspace.packagesByName
  rw [sortNames hp, hw]

/-- The packages that are selected depend neither on the order in which they are described nor on the order in which they are
named. -/
theorem selectedPackages_rearranged {m m' : Metadata} (h : Rearranged m m')
    (hn : ∀ p ∈ m.packages, ∀ q ∈ m.packages, p.name = q.name → p = q) {names names' : List Text} (hp : names'.Perm names)
    (ws : Bool) (located : Option Path) :
    selectedPackages (Workspace.open m') names' ws located = selectedPackages (Workspace.open m) names ws located := by
  have hpk : (Workspace.open m').packages = (Workspace.open m).packages := packages_rearranged h hn
  have hroot : (Workspace.open m').metadata.workspaceRoot = (Workspace.open m).metadata.workspaceRoot := h.root
  have hdef : (Workspace.open m').defaultPackages = (Workspace.open m).defaultPackages := by
    unfold Workspace.defaultPackages
    show (match m'.defaultMembers with | some n => _ | none => _) = (match m.defaultMembers with | some n => _ | none => _)
    rcases h.defaults with ⟨d, d', h1, h2, h3⟩ | ⟨h1, h2⟩
    · rw [h1, h2]
      simp only
      rw [byName_perm _ _ hpk (((sortBy_perm _ _).trans h3).trans (sortBy_perm _ _).symm)]
    · rw [h1, h2]
  have hemp : names'.isEmpty = names.isEmpty := by
    cases names with
    | nil => rw [List.perm_nil.1 hp]
    | cons x xs =>
      cases names' with
      | nil => simp at hp
      | cons => rfl
  have hexp : ∀ s, (Workspace.open m').expandSelection s = (Workspace.open m).expandSelection s := by
    intro s; unfold Workspace.expandSelection; rw [hpk]
  unfold selectedPackages choosePackageFilter
  rw [hemp]
  have hfil : (Workspace.open m').filterPackages (if !names.isEmpty then .explicit names' else if ws then .all else .auto located) =
      (Workspace.open m).filterPackages (if !names.isEmpty then .explicit names else if ws then .all else .auto located) := by
    split
    · simp only [Workspace.filterPackages, byName_perm _ _ hpk hp]
    · split
      · rfl
      · cases located with
        | none => rfl
        | some dir => simp only [Workspace.filterPackages, hpk, hroot, hdef]
  rw [hfil]
  congr 1
  exact funext hexp

theorem listMutantsText_metadata (w : World) (m' : Metadata) (lc d : Bool) (ms : List Mutant) :
    listMutantsText { w with metadata := m' } lc d ms = listMutantsText w lc d ms := by
  induction ms with
  | nil => rfl
  | cons m ms ih => simp only [listMutantsText, ih]

theorem afterDiscovery_metadata (w : World) (a : MainArgs) (m' : Metadata) (names' : List Text) (ms fs) :
    afterDiscovery { w with metadata := m' } { a with mutatePackages := names' } ms fs = afterDiscovery w a ms fs := by
  unfold afterDiscovery
  simp only [listMutantsText_metadata]
  rfl

theorem discovers_rearranged (w : World) (a : MainArgs) {m' : Metadata} {names' : List Text} (h : Rearranged w.metadata m')
    (hn : ∀ p ∈ w.metadata.packages, ∀ q ∈ w.metadata.packages, p.name = q.name → p = q)
    (hp : names'.Perm a.mutatePackages) (ms fs) :
    Discovers { w with metadata := m' } { a with mutatePackages := names' } ms fs ↔ Discovers w a ms fs := by
  unfold Discovers
  simp only [selectedPackages_rearranged h hn hp]
  rfl

/-- **C104**: what is listed and tested, and in which order, depends neither on the order in which `cargo metadata` lists the
members, their targets and the default members, nor on the order in which packages are named with `--package`. (Cargo insists
that members have distinct names.) -/
theorem C104_same_order (w : World) (a : MainArgs) (m' : Metadata) (names' : List Text) (h : Rearranged w.metadata m')
    (hn : ∀ p ∈ w.metadata.packages, ∀ q ∈ w.metadata.packages, p.name = q.name → p = q)
    (hp : names'.Perm a.mutatePackages) (act : Action) :
    Runs { w with metadata := m' } { a with mutatePackages := names' } act ↔ Runs w a act := by
  have key := discovers_rearranged w a h hn hp
  unfold Runs
  constructor
  · rintro ⟨ms, fs, hd, h⟩
    exact ⟨ms, fs, (key ms fs).1 hd, (afterDiscovery_metadata ..).symm.trans h⟩
  · rintro ⟨ms, fs, hd, h⟩
    exact ⟨ms, fs, (key ms fs).2 hd, (afterDiscovery_metadata ..).trans h⟩

/-- **C104**: if the shards are made on machines where cargo lists the packages in different orders, they are still parts of the
same list: together they have each mutant of the run without sharding, exactly as often. -/
theorem C104_shards (w : World) (a : MainArgs) (n : Nat) (hn0 : 0 < n) (ms : List Mutant) (hs : Selects w { a with shard := none } ms)
    (m' : Nat → Metadata) (names' : Nat → List Text) (h : ∀ k < n, Rearranged w.metadata (m' k))
    (hn : ∀ p ∈ w.metadata.packages, ∀ q ∈ w.metadata.packages, p.name = q.name → p = q)
    (hp : ∀ k < n, (names' k).Perm a.mutatePackages) (part : Nat → List Mutant)
    (hpart : ∀ k < n, Selects { w with metadata := m' k } { a with shard := some ⟨k, n⟩, mutatePackages := names' k } (part k)) :
    ((List.range n).flatMap part).Perm ms := by
  obtain ⟨parts, hlen, hperm, hsel⟩ := selects_shards w a ms hs n hn0
  have heq : ∀ k (hk : k < parts.length), part k = parts[k] := by
    intro k hk
    have hk' : k < n := hlen ▸ hk
    obtain ⟨found, fs, left, changed, hd, h1, h2, h3⟩ := hpart k hk'
    have hd' : Discovers w { a with shard := some ⟨k, n⟩ } found fs :=
      (discovers_rearranged w { a with shard := some ⟨k, n⟩ } (h k hk') hn (hp k hk') found fs).1 hd
    exact selects_unique (w := w) (a := { a with shard := some ⟨k, n⟩ }) ⟨found, fs, left, changed, hd', h1, h2, h3⟩ (hsel k hk)
  have : (List.range n).flatMap part = parts.flatten := by
    rw [List.flatMap_def]
    congr 1
    apply List.ext_getElem
    · simp [hlen]
    · intro i h1 h2
      simp [heq i h2]
  rw [this]
  exact hperm

/-- A workspace with two members, one of them with two targets. -/
def sampleListed : Metadata where
  workspaceRoot := ["/".toList, "w".toList]
  packages := [
    { name := "b".toList, version := "1.0.0".toList, manifestPath := ["/".toList, "w".toList, "b".toList, "Cargo.toml".toList],
      targets := [⟨[.lib], ["/".toList, "w".toList, "b".toList, "lib.rs".toList]⟩, ⟨[.bin], ["/".toList, "w".toList, "b".toList, "bin.rs".toList]⟩] },
    { name := "a".toList, version := "0.1.0".toList, manifestPath := ["/".toList, "w".toList, "a".toList, "Cargo.toml".toList],
      targets := [⟨[.lib], ["/".toList, "w".toList, "a".toList, "lib.rs".toList]⟩] }]
  defaultMembers := some ["b".toList, "a".toList]

/-- The same workspace, described in another order. -/
def sampleRelisted : Metadata where
  workspaceRoot := sampleListed.workspaceRoot
  packages := (sampleListed.packages.map fun p => { p with targets := p.targets.reverse }).reverse
  defaultMembers := some ["a".toList, "b".toList]

theorem sampleRelisted_rearranged : Rearranged sampleListed sampleRelisted where
  root := rfl
  members := ⟨fun p => p.targets.reverse, fun _ _ => List.reverse_perm _, List.reverse_perm _⟩
  defaults := .inl ⟨_, _, rfl, rfl, List.Perm.swap _ _ _⟩

example : sampleRelisted ≠ sampleListed ∧ (sampleListed.packages.map (·.name)).Nodup ∧
    ∀ m ∈ [sampleListed, sampleRelisted], (selectedPackages (Workspace.open m) [] true none).map (·.map fun p => (p.name, p.topSources)) =
      some [("a".toList, [["a".toList, "lib.rs".toList]]), ("b".toList, [["b".toList, "bin.rs".toList], ["b".toList, "lib.rs".toList]])] := by
  decide

example : ∀ p ∈ sampleListed.packages, ∀ q ∈ sampleListed.packages, p.name = q.name → p = q := by decide

/-! ### Which order -/

theorem packagesFromMetadata_sorted (m : Metadata) :
    (packagesFromMetadata m).Pairwise fun p q => Dict p.name q.name := by
  unfold packagesFromMetadata
  have h := sortBy_sorted (fun a b : PackageMeta => textLe a.name b.name) (fun a b => textLe_total _ _)
    (fun a b c => textLe_trans _ _ _) m.packages
  refine List.Pairwise.filterMap _ ?_ h
  intro a b hab x hx y hy
  rw [((fromMetadata_iff _ _ _).1 hx).1.1, ((fromMetadata_iff _ _ _).1 hy).1.1]
  exact dict_of_textLe hab

theorem packagesByName_sorted (w : Workspace) (names : List Text) :
    (w.packagesByName names).Pairwise fun p q => Dict p.name q.name := by
  unfold Workspace.packagesByName
  refine List.Pairwise.filterMap _ ?_ (sortBy_sorted textLe textLe_total textLe_trans names)
  intro a b hab x hx y hy
  have h1 := List.find?_some hx
  have h2 := List.find?_some hy
  simp only [beq_iff_eq] at h1 h2
  rw [h1, h2]
  exact dict_of_textLe hab

theorem selectedPackages_sorted (m : Metadata) (names : List Text) (ws : Bool) (located : Option Path) (ps : List Package)
    (h : selectedPackages (Workspace.open m) names ws located = some ps) : ps.Pairwise fun p q => Dict p.name q.name := by
  unfold selectedPackages choosePackageFilter at h
  obtain ⟨sel, hs, rfl⟩ := Option.map_eq_some_iff.1 h
  have hdef : ((Workspace.open m).expandSelection (Workspace.open m).defaultPackages).Pairwise fun p q => Dict p.name q.name := by
    unfold Workspace.defaultPackages
    split
    · exact packagesByName_sorted _ _
    · exact packagesFromMetadata_sorted m
  split at hs
  · cases hs; exact packagesByName_sorted _ _
  · split at hs
    · cases hs; exact packagesFromMetadata_sorted m
    · cases located with
      | none => cases hs
      | some dir =>
        simp only [Workspace.filterPackages] at hs
        split at hs
        · cases hs; exact List.pairwise_singleton _ _
        · split at hs
          · cases hs; exact hdef
          · cases hs

/-- Members are selected at most once, unless they are named twice. -/
theorem selectedPackages_nodup (m : Metadata) (names : List Text) (ws : Bool) (located : Option Path) (ps : List Package)
    (hn : (m.packages.map (·.name)).Nodup) (hnames : names.Nodup) (hdef : ∀ d, m.defaultMembers = some d → d.Nodup)
    (h : selectedPackages (Workspace.open m) names ws located = some ps) : ps.Nodup := by
  have hall : (packagesFromMetadata m).Nodup := by
    unfold packagesFromMetadata
    have h1 : (sortBy (fun a b : PackageMeta => textLe a.name b.name) m.packages).Pairwise fun a b => a.name ≠ b.name := by
      have := ((sortBy_perm (fun a b : PackageMeta => textLe a.name b.name) m.packages).map (·.name)).nodup_iff.2 hn
      exact List.pairwise_map.1 this
    refine List.Pairwise.filterMap _ ?_ h1
    intro a b hab x hx y hy hxy
    apply hab
    rw [← ((fromMetadata_iff _ _ _).1 hx).1.1, ← ((fromMetadata_iff _ _ _).1 hy).1.1, hxy]
  unfold selectedPackages choosePackageFilter at h
  obtain ⟨sel, hs, rfl⟩ := Option.map_eq_some_iff.1 h
  split at hs
  · cases hs; exact packagesByName_nodup _ _ hnames
  · split at hs
    · cases hs; exact hall
    · cases located with
      | none => cases hs
      | some dir =>
        simp only [Workspace.filterPackages] at hs
        split at hs
        · cases hs; exact List.pairwise_singleton _ _
        · split at hs
          · cases hs
            unfold Workspace.defaultPackages
            split
            · rename_i d hd
              exact packagesByName_nodup _ _ ((sortBy_perm _ _).nodup_iff.2 (hdef d hd))
            · exact hall
          · cases hs

theorem selectedPackages_mem {m : Metadata} {names : List Text} {ws : Bool} {located : Option Path} {ps : List Package}
    (h : selectedPackages (Workspace.open m) names ws located = some ps) : ∀ p ∈ ps, p ∈ (Workspace.open m).packages := by
  have hby : ∀ ns, ∀ p ∈ (Workspace.open m).packagesByName ns, p ∈ (Workspace.open m).packages := by
    intro ns p hp
    obtain ⟨n, _, hf⟩ := List.mem_filterMap.1 hp
    exact List.mem_of_find?_eq_some hf
  unfold selectedPackages choosePackageFilter at h
  obtain ⟨sel, hs, rfl⟩ := Option.map_eq_some_iff.1 h
  split at hs
  · cases hs; exact hby _
  · split at hs
    · cases hs; exact fun p hp => hp
    · cases located with
      | none => cases hs
      | some dir =>
        simp only [Workspace.filterPackages] at hs
        split at hs
        · rename_i q hq
          cases hs
          intro p hp
          rw [List.mem_singleton.1 hp]
          exact List.mem_of_find?_eq_some hq
        · split at hs
          · cases hs
            unfold Workspace.defaultPackages
            split
            · exact hby _
            · exact fun p hp => hp
          · cases hs

theorem dedup_sublist {α} [DecidableEq α] : ∀ l : List α, (dedup l).Sublist l
  | [] => List.Sublist.refl _
  | [_] => List.Sublist.refl _
  | x :: y :: rest => by
    unfold dedup
    split
    · exact (dedup_sublist (y :: rest)).cons x
    · exact (dedup_sublist (y :: rest)).cons_cons x

theorem pairwise_all {α} {R : α → α → Prop} (l : List α) (h : ∀ x ∈ l, ∀ y ∈ l, R x y) : l.Pairwise R := by
  induction l with
  | nil => exact .nil
  | cons x xs ih =>
    exact .cons (fun y hy => h x (by simp) y (by simp [hy])) (ih fun a ha b hb => h a (by simp [ha]) b (by simp [hb]))

theorem topSources_sorted {m : Metadata} {p : Package} (h : ∃ pm, p.topSources = packageTopSources m.workspaceRoot pm) :
    p.topSources.Pairwise fun x y => x ≠ y ∧ DictPath x y := by
  obtain ⟨pm, h⟩ := h
  rw [h]
  unfold packageTopSources
  have hs := sortBy_sorted pathLe pathLe_total pathLe_trans (pm.targets.filterMap fun t =>
    if shouldMutateTarget t then stripPrefix t.srcPath m.workspaceRoot else none)
  have hd := dedup_nodup pathLe pathLe_antisymm _ hs
  refine hd.and ?_ |>.imp fun h => h
  exact (hs.sublist (dedup_sublist _)).imp dictPath_of_pathLe

/-- Top files come first, in the order of their paths. -/
def TopsFirst (x y : Path × Bool) : Prop := y.2 = true → x.2 = true ∧ x.1 ≠ y.1 ∧ DictPath x.1 y.1

theorem load_fields {env : WalkEnv} {pkg : Package} {path : Path} {top : Bool} {sf : SourceFile}
    (h : loadSource env.read env.root path pkg top = some (some sf)) : sf.package = pkg ∧ sf.path = path ∧ sf.isTop = top := by
  unfold loadSource at h
  split at h
  · cases h
  · obtain ⟨raw, _, h⟩ := Option.bind_eq_some_iff.1 h
    cases h
    exact ⟨rfl, rfl, rfl⟩

theorem walkOne_load {env : WalkEnv} {pkg : Package} {path : Path} {top : Bool} {r}
    (h : walkOne env pkg path top = some (some r)) : loadSource env.read env.root path pkg top = some (some r.1) := by
  unfold walkOne at h
  obtain ⟨l, hl, h⟩ := Option.bind_eq_some_iff.1 h
  split at h
  · cases h
  · obtain ⟨syn, _, h⟩ := Option.bind_eq_some_iff.1 h
    obtain ⟨x, _, h⟩ := Option.bind_eq_some_iff.1 h
    obtain ⟨y, _, h⟩ := Option.bind_eq_some_iff.1 h
    obtain ⟨z, _, h⟩ := Option.bind_eq_some_iff.1 h
    cases h
    exact hl

theorem walkStep_tops {env : WalkEnv} {pkg : Package} {s s' : WalkState} (h : walkStep env pkg s = some s')
    (hi : (s.files.map (fun f => (f.path, f.isTop)) ++ s.queue).Pairwise TopsFirst) :
    (s'.files.map (fun f => (f.path, f.isTop)) ++ s'.queue).Pairwise TopsFirst := by
  unfold walkStep at h
  split at h
  · cases h; exact hi
  · rename_i path top rest hq
    rw [hq] at hi
    have hdrop : (s.files.map (fun f => (f.path, f.isTop)) ++ rest).Pairwise TopsFirst :=
      hi.sublist (List.Sublist.append (List.Sublist.refl _) (List.sublist_cons_self _ _))
    have hmods : ∀ (l : List (Path × Bool)) (mods : List Path), l.Pairwise TopsFirst →
        (l ++ mods.map fun p => (p, false)).Pairwise TopsFirst := by
      intro l mods hl
      refine List.pairwise_append.2 ⟨hl, List.pairwise_map.2 ?_, ?_⟩
      · exact List.pairwise_of_forall fun _ _ h => by cases h
      · intro x _ y hy hyt
        obtain ⟨p, _, rfl⟩ := List.mem_map.1 hy
        cases hyt
    split at h
    · cases h
    · cases h; exact hdrop
    · rename_i sf ms mods ho
      obtain ⟨_, h1, h2⟩ := load_fields (walkOne_load ho)
      simp only at h1 h2
      simp only at h
      split at h
      · cases h
        have : (s.files ++ [sf]).map (fun f => (f.path, f.isTop)) ++ (rest ++ mods.map fun p => (p, false)) =
            (s.files.map (fun f => (f.path, f.isTop)) ++ (path, top) :: rest) ++ mods.map fun p => (p, false) := by
          simp [h1, h2]
        rw [this]
        exact hmods _ _ hi
      · cases h
        rw [← List.append_assoc]
        exact hmods _ _ hdrop

theorem walkSteps_tops {env : WalkEnv} {pkg : Package} : ∀ (n : Nat) {s s' : WalkState}, walkSteps env pkg n s = some s' →
    (s.files.map (fun f => (f.path, f.isTop)) ++ s.queue).Pairwise TopsFirst →
    (s'.files.map (fun f => (f.path, f.isTop)) ++ s'.queue).Pairwise TopsFirst
  | 0, _, _, h, hi => by cases h; exact hi
  | n + 1, s, s', h, hi => by
    obtain ⟨t, ht, h⟩ := Option.bind_eq_some_iff.1 h
    exact walkSteps_tops n h (walkStep_tops ht hi)

theorem walksPackage_tops {env : WalkEnv} {pkg : Package} {ms fs} (h : WalksPackage env pkg ms fs)
    (ht : pkg.topSources.Pairwise fun x y => x ≠ y ∧ DictPath x y) :
    fs.Pairwise fun f g => g.isTop = true → f.isTop = true ∧ f.path ≠ g.path ∧ DictPath f.path g.path := by
  obtain ⟨n, s, h1, h2, _, rfl⟩ := h
  have := walkSteps_tops n h1 (by
    show ([] ++ pkg.topSources.map fun p => (p, true)).Pairwise TopsFirst
    rw [List.nil_append, List.pairwise_map]
    exact ht.imp fun h _ => ⟨rfl, h⟩)
  rw [h2, List.append_nil, List.pairwise_map] at this
  exact this

theorem walksPackage_package {env : WalkEnv} {pkg : Package} {ms fs} (h : WalksPackage env pkg ms fs) :
    ∀ f ∈ fs, f.package = pkg := by
  intro f hf
  obtain ⟨x, _, hl, _⟩ := (C45_files env pkg ms fs h f).1 hf
  exact (load_fields hl).1

theorem walksTree_package {env : WalkEnv} {pkgs ms fs} (h : WalksTree env pkgs ms fs) : ∀ f ∈ fs, f.package ∈ pkgs := by
  intro f hf
  obtain ⟨pkg, hp, x, _, hl, _⟩ := ((C45_tree env pkgs ms fs h).1 f).1 hf
  rw [(load_fields hl).1]
  exact hp

theorem walksTree_order {env : WalkEnv} {pkgs ms fs} (h : WalksTree env pkgs ms fs)
    (hs : pkgs.Pairwise fun p q => Dict p.name q.name) : fs.Pairwise fun f g => Dict f.package.name g.package.name := by
  induction h with
  | nil => exact .nil
  | @cons pkg pkgs ms fs ms' fs' hp ht ih =>
    rw [List.pairwise_cons] at hs
    refine List.pairwise_append.2 ⟨?_, ih hs.2, ?_⟩
    · exact pairwise_all _ (fun f hf g hg => by
        rw [walksPackage_package hp f hf, walksPackage_package hp g hg]; exact .inl (List.prefix_refl _))
    · intro f hf g hg
      rw [walksPackage_package hp f hf]
      exact hs.1 _ (walksTree_package ht g hg)

theorem walksTree_tops {env : WalkEnv} {pkgs ms fs} (h : WalksTree env pkgs ms fs) (hnd : pkgs.Nodup)
    (ht : ∀ p ∈ pkgs, p.topSources.Pairwise fun x y => x ≠ y ∧ DictPath x y) :
    fs.Pairwise fun f g => f.package = g.package → g.isTop = true → f.isTop = true ∧ f.path ≠ g.path ∧ DictPath f.path g.path := by
  induction h with
  | nil => exact .nil
  | @cons pkg pkgs ms fs ms' fs' hp hr ih =>
    have hnd' := List.nodup_cons.1 hnd
    refine List.pairwise_append.2 ⟨?_, ih hnd'.2 fun p hp => ht p (by simp [hp]), ?_⟩
    · refine List.Pairwise.imp ?_ (walksPackage_tops hp (ht pkg (by simp)))
      exact fun h _ => h
    · intro f hf g hg he
      have h1 := walksPackage_package hp f hf
      have h2 := walksTree_package hr g hg
      rw [← he, h1] at h2
      exact absurd h2 hnd'.1

/-- **C104**: the files are found package by package, in the alphabetical order of the packages' names; within a package, those
of its targets come first, in the order of their paths and each once. -/
theorem C104_files (w : World) (a : MainArgs) (ms : List Mutant) (fs : List SourceFile) (h : Discovers w a ms fs) :
    (fs.Pairwise fun f g => Dict f.package.name g.package.name) ∧
    ((w.metadata.packages.map (·.name)).Nodup → a.mutatePackages.Nodup → (∀ d, w.metadata.defaultMembers = some d → d.Nodup) →
      fs.Pairwise fun f g => f.package = g.package → g.isTop = true →
        f.isTop = true ∧ f.path ≠ g.path ∧ DictPath f.path g.path) := by
  obtain ⟨o, pkgs, exprs, _, h2, _, h4⟩ := h
  refine ⟨walksTree_order h4 (selectedPackages_sorted _ _ _ _ _ h2), fun hn hnames hdef => ?_⟩
  refine walksTree_tops h4 (selectedPackages_nodup _ _ _ _ _ hn hnames hdef h2) fun p hp => ?_
  obtain ⟨pm, _, _, ht⟩ := (mem_packages _ _).1 (selectedPackages_mem h2 p hp)
  exact topSources_sorted ⟨pm, ht⟩

/-- **C104**: the mutants that are listed, or tested in the order in which they were found, come in the alphabetical order of their
packages. -/
theorem C104_mutants (w : World) (a : MainArgs) (ms : List Mutant) (h : Selects w a ms) :
    ms.Pairwise fun x y => Dict x.sourceFile.package.name y.sourceFile.package.name := by
  obtain ⟨found, fs, hd, hsub⟩ := selects_sublist h
  refine List.Pairwise.sublist hsub ?_
  have hf := (C104_files w a found fs hd).1
  obtain ⟨o, pkgs, exprs, _, _, _, h4⟩ := hd
  rw [(C45_tree _ _ _ _ h4).2.2, List.pairwise_flatMap]
  have hsrc : ∀ f, ∀ m ∈ fileMutants (w.walkEnv o exprs) f, m.sourceFile = f := fun f m hm => fileMutants_source hm
  refine ⟨fun f _ => ?_, hf.imp fun h x hx y hy => by rw [hsrc _ x hx, hsrc _ y hy]; exact h⟩
  exact pairwise_all _ fun x hx y hy => by
    rw [hsrc f x hx, hsrc f y hy]; exact .inl (List.prefix_refl _)

theorem uniqueFrom_sublist {α} [DecidableEq α] (seen l : List α) : (uniqueFrom seen l).Sublist l := by
  induction l generalizing seen with
  | nil => exact List.Sublist.refl _
  | cons x xs ih =>
    unfold uniqueFrom
    split
    · exact (ih seen).cons x
    · exact (ih _).cons_cons x

/-- **C104**: the packages of the baseline are in alphabetical order, and they are the same, in the same order, if the mutants are
shuffled. (Packages with the same name are the same.) -/
theorem C104_baseline (ms ms' : List Mutant) (hp : ms'.Perm ms)
    (hn : ∀ x ∈ ms, ∀ y ∈ ms, x.sourceFile.package.name = y.sourceFile.package.name → x.sourceFile.package = y.sourceFile.package) :
    baselinePackages ms' = baselinePackages ms ∧
    ∃ ps, baselinePackages ms = .explicit ps ∧ ps.Pairwise fun p q => Dict p.name q.name := by
  constructor
  · unfold baselinePackages
    rw [sortBy_eq_of_perm (fun a b : Package => textLe a.name b.name) (fun a b => textLe_total _ _) (fun a b c => textLe_trans _ _ _)
      (hp.symm.map _)]
    intro a ha b hb h1 h2
    obtain ⟨x, hx, rfl⟩ := List.mem_map.1 ha
    obtain ⟨y, hy, rfl⟩ := List.mem_map.1 hb
    exact hn x hx y hy (textLe_antisymm _ _ h1 h2)
  · refine ⟨_, rfl, ?_⟩
    have := sortBy_sorted (fun a b : Package => textLe a.name b.name) (fun a b => textLe_total _ _) (fun a b c => textLe_trans _ _ _)
      (ms.map (·.sourceFile.package))
    exact (this.sublist (uniqueFrom_sublist [] _)).imp dict_of_textLe

end CM.Props
