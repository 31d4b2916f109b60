import Verif.Spec.Link
import Verif.Props.CopyTree
import Verif.Props.Lab
/-! C68 with symbolic links: what a run without `--in-place` writes to. -/
namespace CM.Props
open CM CM.Spec CM.Copy CM.Link

/-! ### What is copied -/

/-- Every entry that the walk gives is in the tree. -/
theorem walk_at (keep : Path → Text → Bool → Bool) : (t : Tree) → (base : Path) → ∀ e ∈ walkTree keep base t, ∃ p, e.1 = base ++ p ∧ At t p e.2
  | .file c, base, e, he => by
    simp only [walkTree, List.mem_singleton] at he
    subst he; exact ⟨[], by simp, .file c⟩
  | .symlink t, base, e, he => by
    simp only [walkTree, List.mem_singleton] at he
    subst he; exact ⟨[], by simp, .symlink t⟩
  | .other, base, e, he => by
    simp only [walkTree, List.mem_singleton] at he
    subst he; exact ⟨[], by simp, .other⟩
  | .dir f, base, e, he => by
    simp only [walkTree, List.mem_cons] at he
    rcases he with rfl | he
    · exact ⟨[], by simp, .dir f⟩
    · obtain ⟨n, t, p, h1, h2, h3⟩ := walkForest_at keep f base e he
      exact ⟨n :: p, h2, .inside h1 h3⟩
where
  walkForest_at (keep : Path → Text → Bool → Bool) : (f : Forest) → (base : Path) → ∀ e ∈ walkForest keep base f,
      ∃ n t p, Entry f n t ∧ e.1 = base ++ n :: p ∧ At t p e.2
    | .nil, base, e, he => by simp [walkForest] at he
    | .cons n t rest, base, e, he => by
      simp only [walkForest, List.mem_append] at he
      rcases he with he | he
      · by_cases hk : keep (base ++ [n]) n (decide (t.kind = .dir)) = true
        · rw [if_pos hk] at he
          obtain ⟨p, h1, h2⟩ := walk_at keep t (base ++ [n]) e he
          exact ⟨n, t, p, .here n t rest, by rw [h1]; simp, h2⟩
        · rw [if_neg hk] at he; cases he
      · obtain ⟨m, u, p, h1, h2, h3⟩ := walkForest_at keep rest base e he
        exact ⟨m, u, p, .there h1, h2, h3⟩

/-- The links and directories of a copy are those of the source. -/
def ShapeOf (d : Path → Option Kind) (kind : Path → Option Kind) : Prop :=
  ∀ p k, d p = some k → (k = .dir ∨ ∃ t, k = .symlink t) → kind p = some k

theorem at_dir_of_prefix {t : Tree} {p q : Path} {k : Kind} (h : At t p k) (hq : q <+: p) (hne : q ≠ p) : At t q .dir := by
  induction h generalizing q with
  | file | symlink | other => exact absurd (List.prefix_nil.1 hq) hne
  | dir f => exact absurd (List.prefix_nil.1 hq) hne
  | @inside f n t p k he _ ih =>
    cases q with
    | nil => exact .dir f
    | cons m q =>
      obtain ⟨rfl, hq'⟩ := List.cons_prefix_cons.1 hq
      exact .inside he (ih hq' fun e => hne (by rw [e]))

theorem copyEntries_shape (kind : Path → Option Kind) (hk : ∀ p q, q <+: p → kind p = some .dir → kind q = some .dir)
    (es : List (Path × Kind)) (he : ∀ e ∈ es, kind e.1 = some e.2) (d d' : Dest) (hd : ShapeOf d kind) (h : copyEntries d es = some d') :
    ShapeOf d' kind := by
  induction es generalizing d with
  | nil => cases h; exact hd
  | cons e es ih =>
    obtain ⟨d1, h1, h2⟩ := Option.bind_eq_some_iff.1 h
    refine ih (fun e he' => he e (List.mem_cons_of_mem _ he')) d1 ?_ h2
    have hthis := he e List.mem_cons_self
    obtain ⟨p, k⟩ := e
    cases k with
    | other => cases h1; exact hd
    | file c =>
      replace h1 : Dest.copyFile d p c = some d1 := h1
      unfold Dest.copyFile at h1
      split at h1
      · cases h1
        intro q k hq hs
        unfold Dest.put at hq
        split at hq
        · cases hq; rcases hs with hs | ⟨t, hs⟩ <;> cases hs
        · exact hd q k hq hs
      · cases h1
    | symlink t =>
      replace h1 : Dest.symlink d p t = some d1 := h1
      unfold Dest.symlink at h1
      split at h1
      · cases h1
        intro q k hq hs
        unfold Dest.put at hq
        split at hq
        · rename_i e; cases hq; subst e; exact hthis
        · exact hd q k hq hs
      · cases h1
    | dir =>
      replace h1 : Dest.createDirAll d p = some d1 := h1
      unfold Dest.createDirAll at h1
      split at h1
      · cases h1
        intro q k hq hs
        dsimp only at hq
        split at hq
        · rename_i e; cases hq
          exact hk p q (mem_prefixes.1 e) hthis
        · exact hd q k hq hs
      · cases h1

/-- What the source has, as a function. -/
theorem copy_shape (env : Env) (fs : Fs) (tree : Tree) (hn : Now env fs tree) (n : Nat) (d : Dest)
    (h : copyEntries .empty ((walkTree (keepEntry env.options env.ignored) [] tree).take n) = some d) : ShapeOf d fun p => fs (env.source ++ p) := by
  refine copyEntries_shape _ ?_ _ ?_ _ _ ?_ h
  · intro p q hq hp
    have := (hn.same p .dir).2 hp
    by_cases e : q = p
    · subst e; exact hp
    · exact (hn.same q .dir).1 (at_dir_of_prefix this hq e)
  · intro e he
    obtain ⟨p, h1, h2⟩ := walk_at _ tree [] e (List.take_subset _ _ he)
    rw [h1]
    exact (hn.same p e.2).1 h2
  · intro p k hp hs
    unfold Dest.empty at hp
    split at hp
    · rename_i e; subst e; cases hp; simpa using hn.root
    · cases hp

/-! ### Following paths -/

theorem resolve_nil (fs : Fs) (links : Nat) (here : Path) : resolve fs links here [] = some here := by cases links <;> rfl

theorem resolve_cons (fs : Fs) (links : Nat) (here : Path) (name : Text) (rest : Path) :
    resolve fs links here (name :: rest) =
      if name = ".".toList then resolve fs links here rest
      else if name = "..".toList then resolve fs links here.dropLast rest
      else
        match fs (here ++ [name]) with
        | none => none
        | some .dir => resolve fs links (here ++ [name]) rest
        | some (.symlink target) =>
          match links with
          | 0 => none
          | links + 1 => resolve fs links (if target.head? = some '/' then [] else here) (linkNames target ++ rest)
        | some _ => if rest = [] then some (here ++ [name]) else none := by
  cases links <;> rfl

/-- A path that does not lead out of a directory leads to something in it. -/
theorem resolve_inside (fs : Fs) (dir : Path) (kind : Path → Option Kind) (hs : ShapeOf (fun p => fs (dir ++ p)) kind) :
    (links : Nat) → (here todo : Path) → ¬ Leaves kind here todo → ∀ p, resolve fs links (dir ++ here) todo = some p → dir <+: p
  | links, here, [], _, p, h => by
    rw [resolve_nil] at h
    cases h; exact ⟨here, rfl⟩
  | links, here, name :: rest, hl, p, h => by
    rw [resolve_cons] at h
    by_cases h1 : name = ".".toList
    · rw [if_pos h1] at h
      subst h1
      exact resolve_inside fs dir kind hs links here rest (fun hx => hl (.dot hx)) p h
    rw [if_neg h1] at h
    by_cases h2 : name = "..".toList
    · rw [if_pos h2] at h
      subst h2
      have hne : here ≠ [] := by rintro rfl; exact hl (.above rest)
      rw [List.dropLast_append_of_ne_nil hne] at h
      exact resolve_inside fs dir kind hs links here.dropLast rest (fun hx => hl (.up hx)) p h
    rw [if_neg h2] at h
    rw [List.append_assoc] at h
    cases hk : fs (dir ++ (here ++ [name])) with
    | none => rw [hk] at h; cases h
    | some k =>
      rw [hk] at h
      cases k with
      | dir =>
        exact resolve_inside fs dir kind hs links (here ++ [name]) rest
          (fun hx => hl (.dir h1 h2 (hs _ _ hk (.inl rfl)) hx)) p h
      | symlink target =>
        have hk' := hs _ _ hk (.inr ⟨_, rfl⟩)
        by_cases ha : target.head? = some '/'
        · exact absurd (.absolute rest h1 h2 hk' ha) hl
        · cases links with
          | zero => cases h
          | succ links =>
            simp only [if_neg ha, linkNames] at h
            exact resolve_inside fs dir kind hs links here _ (fun hx => hl (.link h1 h2 hk' ha hx)) p h
      | file c =>
        dsimp only at h
        split at h
        · cases h; exact ⟨_, rfl⟩
        · cases h
      | other =>
        dsimp only at h
        split at h
        · cases h; exact ⟨_, rfl⟩
        · cases h
termination_by links _ todo => (links, todo.length)

/-- A directory without links on the way is found. -/
theorem resolve_dir (fs : Fs) (links : Nat) (here dir todo : Path) (hdir : ∀ p, p <+: dir → p ≠ [] → fs (here ++ p) = some .dir)
    (hn : ∀ n ∈ dir, n ≠ ".".toList ∧ n ≠ "..".toList) : resolve fs links here (dir ++ todo) = resolve fs links (here ++ dir) todo := by
  induction dir generalizing here with
  | nil => simp
  | cons n dir ih =>
    show resolve fs links here (n :: (dir ++ todo)) = _
    rw [resolve_cons, if_neg (hn n List.mem_cons_self).1, if_neg (hn n List.mem_cons_self).2, hdir [n] (by simp) (by simp)]
    dsimp only
    rw [ih (here ++ [n]) (fun p hp _ => by
      rw [List.append_assoc]
      exact hdir ([n] ++ p) (by simpa using hp) (by simp)) fun m hm => hn m (List.mem_cons_of_mem _ hm)]
    simp

/-! ### Operations -/

/-- What holds between operations: everything that was there at first is unchanged, and build directories
have no other links than the source. -/
structure Kept (env : Env) (fs0 : Fs) (s : State) : Prop where
  old : ∀ p, fs0 p ≠ none → s.fs p = fs0 p
  source : ∀ p, env.source <+: p → s.fs p = fs0 p
  root : s.dirs ≠ [] → fs0 env.source = some .dir
  fresh : ∀ dir ∈ s.dirs, (∀ p, dir <+: p → fs0 p = none) ∧ ¬ env.source <+: dir
  dir : ∀ dir ∈ s.dirs, ∀ p, p <+: dir → s.fs p = some .dir
  names : ∀ dir ∈ s.dirs, ∀ n ∈ dir, n ≠ ".".toList ∧ n ≠ "..".toList
  shape : ∀ dir ∈ s.dirs, ShapeOf (fun p => s.fs (dir ++ p)) fun p => fs0 (env.source ++ p)

theorem copyEntries_root (es : List (Path × Kind)) (d d' : Dest) (hd : d [] = some .dir) (h : copyEntries d es = some d') : d' [] = some .dir := by
  induction es generalizing d with
  | nil => cases h; exact hd
  | cons e es ih =>
    obtain ⟨d1, h1, h2⟩ := Option.bind_eq_some_iff.1 h
    refine ih d1 ?_ h2
    obtain ⟨p, k⟩ := e
    cases k with
    | other => cases h1; exact hd
    | file c =>
      replace h1 : Dest.copyFile d p c = some d1 := h1
      unfold Dest.copyFile at h1
      split at h1
      · rename_i hp; cases h1; rw [put_ne d _ (Ne.symm hp.1)]; exact hd
      · cases h1
    | symlink t =>
      replace h1 : Dest.symlink d p t = some d1 := h1
      unfold Dest.symlink at h1
      split at h1
      · rename_i hp; cases h1; rw [put_ne d _ (Ne.symm hp.1)]; exact hd
      · cases h1
    | dir =>
      replace h1 : Dest.createDirAll d p = some d1 := h1
      unfold Dest.createDirAll at h1
      split at h1
      · cases h1
        exact if_pos (mem_prefixes.2 (List.nil_prefix))
      · cases h1

theorem prefix_comparable {a b c : Path} (h1 : a <+: c) (h2 : b <+: c) : a <+: b ∨ b <+: a :=
  List.prefix_or_prefix_of_prefix h1 h2

theorem mount_outside (fs : Fs) (dir : Path) (d : Dest) {p : Path} (h : ¬ dir <+: p) : fs.mount dir d p = fs p := if_neg h

theorem mount_inside (fs : Fs) (dir : Path) (d : Dest) (p : Path) : fs.mount dir d (dir ++ p) = d p := by
  unfold Fs.mount
  rw [if_pos (List.prefix_append ..), List.drop_left]

theorem Kept.copy {env : Env} {fs0 : Fs} {s : State} (hs : Kept env fs0 s) {tmp : Path} {tree : Tree} {n : Nat} {d : Dest}
    (hf : Fresh env s tmp) (hn : Now env s.fs tree)
    (hc : copyEntries .empty ((walkTree (keepEntry env.options env.ignored) [] tree).take n) = some d) :
    Kept env fs0 { fs := s.fs.mount tmp d, dirs := tmp :: s.dirs } := by
  have hroot : fs0 env.source = some .dir := by rw [← hs.source _ (List.prefix_refl _)]; exact hn.root
  have hd0 : d [] = some .dir := copyEntries_root _ _ _ rfl hc
  have hout : ∀ p, env.source <+: p → ¬ tmp <+: p := by
    intro p hp ht
    rcases prefix_comparable hp ht with h | h
    · exact hf.outside h
    · have := hf.nothing _ h
      rw [hn.root] at this; cases this
  refine ⟨?_, ?_, fun _ => hroot, ?_, ?_, ?_, ?_⟩
  · intro p hp
    have h1 := hs.old p hp
    show s.fs.mount tmp d p = _
    rw [mount_outside]
    · exact h1
    · intro ht
      rw [hf.nothing p ht] at h1
      exact hp h1.symm
  · intro p hp
    show s.fs.mount tmp d p = _
    rw [mount_outside _ _ _ (hout p hp)]
    exact hs.source p hp
  · intro dir hdir
    rcases List.mem_cons.1 hdir with rfl | hdir
    · refine ⟨fun p hp => ?_, hf.outside⟩
      apply Classical.byContradiction
      intro hne
      have := hs.old p hne
      rw [hf.nothing p hp] at this
      exact hne this.symm
    · exact hs.fresh dir hdir
  · intro dir hdir p hp
    show s.fs.mount tmp d p = _
    by_cases ht : tmp <+: p
    · rcases List.mem_cons.1 hdir with rfl | hdir
      · have e : p = dir := (hp.eq_of_length_le ht.length_le)
        subst e
        have := mount_inside s.fs p d []
        rw [List.append_nil] at this
        rw [this]; exact hd0
      · have h1 := hs.dir dir hdir p hp
        rw [hf.nothing p ht] at h1; cases h1
    · rw [mount_outside _ _ _ ht]
      rcases List.mem_cons.1 hdir with rfl | hdir
      · exact hf.parents p hp (fun e => ht (e ▸ List.prefix_refl _))
      · exact hs.dir dir hdir p hp
  · intro dir hdir
    rcases List.mem_cons.1 hdir with rfl | hdir
    · exact hf.names
    · exact hs.names dir hdir
  · intro dir hdir p k hk hs'
    rcases List.mem_cons.1 hdir with rfl | hdir
    · replace hk : s.fs.mount dir d (dir ++ p) = some k := hk
      rw [mount_inside] at hk
      have := copy_shape env s.fs tree hn n d hc p k hk hs'
      show fs0 (env.source ++ p) = some k
      rw [← hs.source _ (List.prefix_append ..)]
      exact this
    · have ht : ¬ tmp <+: dir ++ p := by
        intro ht
        rcases prefix_comparable ht (List.prefix_append dir p) with h | h
        · have h1 := hs.dir dir hdir dir (List.prefix_refl _)
          rw [hf.nothing _ h] at h1; cases h1
        · exact hf.apart dir hdir h
      replace hk : s.fs.mount tmp d (dir ++ p) = some k := hk
      rw [mount_outside _ _ _ ht] at hk
      exact hs.shape dir hdir p k hk hs'

theorem Kept.write {env : Env} {fs0 : Fs} {s : State} (hs : Kept env fs0 s) {dir file : Path} {text : Text} {fs' : Fs}
    (hdir : dir ∈ s.dirs) (hfile : ¬ Leaves (fun p => fs0 (env.source ++ p)) [] file)
    (h : s.fs.overwrite (dir ++ file) text = some fs') : Kept env fs0 { s with fs := fs' } ∧ ∀ p, ¬ dir <+: p → fs' p = s.fs p := by
  unfold Fs.overwrite at h
  obtain ⟨q, hq, h⟩ := Option.bind_eq_some_iff.1 h
  split at h
  case isFalse => cases h
  rename_i hisf
  cases h
  have hqd : dir <+: q := by
    unfold Fs.find at hq
    rw [resolve_dir s.fs _ [] dir file (fun p hp _ => hs.dir dir hdir p hp) (hs.names dir hdir), List.nil_append] at hq
    exact resolve_inside s.fs dir _ (hs.shape dir hdir) maxLinks [] file hfile q (by rwa [List.append_nil])
  obtain ⟨c, hqf⟩ : ∃ c, s.fs q = some (.file c) := by
    cases hk : s.fs q with
    | none => rw [hk] at hisf; cases hisf
    | some k =>
      rw [hk] at hisf
      cases k with
      | file c => exact ⟨c, rfl⟩
      | _ => cases hisf
  have hput : ∀ p, p ≠ q → s.fs.put q (.file text) p = s.fs p := fun p hp => if_neg hp
  refine ⟨⟨?_, ?_, hs.root, hs.fresh, ?_, hs.names, ?_⟩, ?_⟩
  · intro p hp
    show s.fs.put q (.file text) p = _
    rw [hput]
    · exact hs.old p hp
    · rintro rfl
      exact hp ((hs.fresh dir hdir).1 p hqd)
  · intro p hp
    show s.fs.put q (.file text) p = _
    rw [hput]
    · exact hs.source p hp
    · rintro rfl
      rcases prefix_comparable hp hqd with h | h
      · exact (hs.fresh dir hdir).2 h
      · have h1 := (hs.fresh dir hdir).1 _ h
        rw [hs.root (by intro e; rw [e] at hdir; cases hdir)] at h1
        cases h1
  · intro dir' hdir' p hp
    have h1 := hs.dir dir' hdir' p hp
    show s.fs.put q (.file text) p = _
    rw [hput]
    · exact h1
    · rintro rfl
      rw [hqf] at h1; cases h1
  · intro dir' hdir' p k hk hk'
    by_cases e : dir' ++ p = q
    · have : s.fs.put q (.file text) (dir' ++ p) = some k := hk
      rw [e] at this
      have : some (Kind.file text) = some k := by rw [← this]; exact (if_pos rfl).symm
      cases this
      rcases hk' with h | ⟨t, h⟩ <;> cases h
    · have : s.fs.put q (.file text) (dir' ++ p) = some k := hk
      rw [hput _ e] at this
      exact hs.shape dir' hdir' p k this hk'
  · intro p hp
    exact hput p fun e => hp (e ▸ hqd)

/-- The files that are written do not lead out of the source tree. -/
def Stay (env : Env) (fs : Fs) : Prop :=
  ∀ file ∈ manifestFile :: configFile :: env.files, ¬ Leaves (fun p => fs (env.source ++ p)) [] file

theorem kept_changes {env : Env} {fs0 : Fs} (hstay : Stay env fs0) {s : State} (h : Many (Change env) ⟨fs0, []⟩ s) : Kept env fs0 s := by
  induction h with
  | none =>
    exact ⟨fun _ _ => rfl, fun _ _ => rfl, fun h => absurd rfl h, (fun _ h => nomatch h), (fun _ h => nomatch h),
      (fun _ h => nomatch h), (fun _ h => nomatch h)⟩
  | more _ hst ih =>
    cases hst with
    | copy tmp tree n d hf hn hc => exact ih.copy hf hn hc
    | write dir file text fs' hd hfile hw => exact (ih.write hd (hstay file hfile) hw).1

theorem many_trans {α} {step : α → α → Prop} {a b c : α} (h : Many step a b) (h' : Many step b c) : Many step a c := by
  induction h' with
  | none => exact h
  | more _ hst ih => exact .more ih hst

theorem overwrite_of_fix {parse : Text → Option Toml} {print : Toml → Text} {fix : Toml → Option Toml} {fs fs' : Fs} {p : Path}
    (h : Link.fixFile parse print fix fs p = some fs') : fs' = fs ∨ ∃ text, fs.overwrite p text = some fs' := by
  unfold Link.fixFile at h
  obtain ⟨t, _, h⟩ := Option.bind_eq_some_iff.1 h
  obtain ⟨v, _, h⟩ := Option.bind_eq_some_iff.1 h
  split at h
  · exact .inr ⟨_, h⟩
  · cases h; exact .inl rfl

/-- Each operation is made of changes. -/
theorem changes_of_step {env : Env} {s s' : State} (h : Step env s s') : Many (Change env) s s' := by
  cases h with
  | write dir file text fs' hd hf hw =>
    exact .more (.none s) (.write s dir file text fs' hd (by simp [hf]) hw)
  | copy tmp tree fs' hf hn hc =>
    unfold copyInto at hc
    obtain ⟨d, hd, hc⟩ := Option.bind_eq_some_iff.1 hc
    obtain ⟨fs1, h1, hc⟩ := Option.bind_eq_some_iff.1 hc
    have s1 : Many (Change env) s { fs := s.fs.mount tmp d, dirs := tmp :: s.dirs } :=
      .more (.none s) (.copy s tmp tree (walkTree (keepEntry env.options env.ignored) [] tree).length d hf hn (by
        rw [List.take_length]; exact hd))
    have s2 : Many (Change env) s { fs := fs1, dirs := tmp :: s.dirs } := by
      rcases overwrite_of_fix h1 with rfl | ⟨t, ht⟩
      · exact s1
      · exact .more s1 (.write _ tmp manifestFile t fs1 (by simp) (by simp) ht)
    split at hc
    · cases hc; exact s2
    · rcases overwrite_of_fix hc with rfl | ⟨t, ht⟩
      · exact s2
      · exact .more s2 (.write _ tmp configFile t fs' (by simp) (by simp) ht)

/-- What a step of the lab does to directories: nothing, or it writes a file of a mutant in a directory, or it
makes a new one. So `Change` has all of its writes. -/
theorem C68_what_is_written (cfg : Lab.Config) (s s' : Lab.State) (e : Lab.Event) (h : Lab.Reachable cfg s) (hst : Lab.step cfg s e = some s') :
    s'.sh.dirs = s.sh.dirs ∨
    (∃ d m t, m ∈ cfg.mutants ∧ s'.sh.dirs = Lab.writeFile s.sh.dirs d m.sourceFile.path t) ∨
    (∃ d, s'.sh.dirs = fun d' => if d' = d then cfg.copy (s.sh.dirs 0) else s.sh.dirs d') := by
  have hshape := Lab.reachable_shape h
  rcases Lab.step_cases hst with ⟨_, _, rfl⟩ | ⟨ok, _, hm⟩ | ⟨i, c, pc, sh', pc', _, hpc, hw, rfl⟩
  · exact .inl rfl
  · have := Lab.mstep_rel hm
    cases this <;> exact .inl rfl
  · have hfit := hshape.fits i pc hpc
    have over : ∀ (d : Nat) (m : Mutant) t next sh'' pc'', m ∈ cfg.mutants →
        Lab.Overwrite s.sh d m.sourceFile.path t next c sh'' pc'' → sh''.dirs = s.sh.dirs ∨
          (∃ d m t, m ∈ cfg.mutants ∧ sh''.dirs = Lab.writeFile s.sh.dirs d m.sourceFile.path t) ∨
          (∃ d, sh''.dirs = fun d' => if d' = d then cfg.copy (s.sh.dirs 0) else s.sh.dirs d') := by
      intro d m t next sh'' pc'' hm ho
      cases ho with
      | ok => exact .inr (.inl ⟨d, m, t, hm, rfl⟩)
      | missing => exact .inl rfl
      | failed => exact .inl rfl
      | torn t' => exact .inr (.inl ⟨d, m, t', hm, rfl⟩)
    have known : ∀ m, (∃ d, pc = .diffed d (.mutant m) ∨ pc = .failing d (.mutant m) ∨ ∃ rs, pc = .ready d (.mutant m) [] rs) → m ∈ cfg.mutants := by
      rintro m ⟨d, hd⟩
      have : ∃ m' ∈ cfg.mutants, Scenario.mutant m = .mutant m' := by
        rcases hd with rfl | rfl | ⟨rs, rfl⟩ <;> cases hmain : s.main <;> rw [hmain] at hfit <;> simp only [Lab.Fits] at hfit <;>
          first | exact hfit | exact hfit.elim | cases hfit
      obtain ⟨m', hm', e⟩ := this
      cases e; exact hm'
    cases hw with
    | copied b d con h => exact .inr (.inr ⟨d, rfl⟩)
    | apply d m _ _ h => exact over d m _ _ _ _ (known m ⟨d, .inl rfl⟩) h
    | revert d m rs _ _ h => exact over d m _ _ _ _ (known m ⟨d, .inr (.inr ⟨rs, rfl⟩)⟩) h
    | failRevert d m _ _ h => exact over d m _ _ _ _ (known m ⟨d, .inr (.inl rfl)⟩) h
    | _ => exact .inl rfl

/-- Full statement of C68 in a file system with symbolic links: no operation of a run without `--in-place`
changes the source tree. -/
def C68_full : Prop :=
  ∀ (env : Env) (fs0 : Fs) (s : State), Many (Step env) ⟨fs0, []⟩ s → ∀ p, env.source <+: p → s.fs p = fs0 p

/-- **C68**, if no file that is written is reached through a symbolic link that leads out of the source tree:
whatever fails and whenever it stops, the source tree is unchanged, and so is everything else that
existed before. -/
theorem C68_links_partial (env : Env) (fs0 : Fs) (hstay : Stay env fs0) (s : State) (h : Many (Change env) ⟨fs0, []⟩ s) :
    (∀ p, env.source <+: p → s.fs p = fs0 p) ∧ ∀ p, fs0 p ≠ none → s.fs p = fs0 p :=
  ⟨(kept_changes hstay h).source, (kept_changes hstay h).old⟩

/-- The same for operations that succeed. -/
theorem C68_operations_partial (env : Env) (fs0 : Fs) (hstay : Stay env fs0) (s : State) (h : Many (Step env) ⟨fs0, []⟩ s) :
    (∀ p, env.source <+: p → s.fs p = fs0 p) ∧ ∀ p, fs0 p ≠ none → s.fs p = fs0 p := by
  refine C68_links_partial env fs0 hstay s ?_
  induction h with
  | none => exact .none _
  | more _ hst ih => exact many_trans ih (changes_of_step hst)

/-- What is not a link or directory does not lead anywhere. -/
theorem leaves_end {kind : Path → Option Kind} {here : Path} {name : Text} {rest : Path} (h1 : name ≠ ".".toList) (h2 : name ≠ "..".toList)
    (hk : kind (here ++ [name]) ≠ some .dir) (hl : ∀ t, kind (here ++ [name]) ≠ some (.symlink t)) : ¬ Leaves kind here (name :: rest) := by
  intro h
  cases h with
  | above => exact h2 rfl
  | absolute _ _ _ hs => exact hl _ hs
  | dot => exact h1 rfl
  | up => exact h2 rfl
  | dir _ _ hs => exact hk hs
  | link _ _ hs => exact hl _ hs

theorem leaves_link {kind : Path → Option Kind} {here : Path} {name target : Text} {rest : Path} (h1 : name ≠ ".".toList)
    (h2 : name ≠ "..".toList) (hk : kind (here ++ [name]) = some (.symlink target)) (ht : target.head? ≠ some '/') :
    Leaves kind here (name :: rest) → Leaves kind here (components target ++ rest) := by
  intro h
  cases h with
  | above => exact absurd rfl h2
  | absolute _ _ _ hs h => rw [hk] at hs; cases hs; exact absurd h ht
  | dot => exact absurd rfl h1
  | up => exact absurd rfl h2
  | dir _ _ hs => rw [hk] at hs; cases hs
  | link _ _ hs _ h => rw [hk] at hs; cases hs; exact h

/-- A source tree in which a file is an absolute symbolic link to another. -/
def linkTree (target : Text) : Tree := sampleDir
  [("Cargo.toml", .file "m".toList), ("lib.rs", .symlink target), ("real.rs", .file "fn f() {}".toList)]

def linkEnv : Env :=
  { source := ["s".toList], files := [["lib.rs".toList]], options := {}, ignored := fun _ _ => false,
    parse := fun _ => some (.table []), print := fun _ => [] }

/-- It is at `/s`. -/
def linkFs (target : Text) : Fs
  | [] => some .dir
  | n :: p => if n = "s".toList then lookTree (fun _ _ _ => true) [] (linkTree target) p else none

theorem linkTree_proper (target : Text) : Proper (linkTree target) := by
  refine .dir (.cons (.file _) (.cons (.symlink _) (.cons (.file _) .nil ?_) ?_) ?_)
  · intro u h; cases h
  · intro u h
    cases h with
    | there h => cases h
  · intro u h
    cases h with
    | there h => cases h with
      | there h => cases h

theorem linkTree_now (target : Text) : Now linkEnv (linkFs target) (linkTree target) where
  proper := linkTree_proper target
  root := rfl
  same p k := by
    show At _ p k ↔ lookTree _ [] (linkTree target) p = some k
    rw [lookTree_iff _ _ _ (linkTree_proper target)]
    constructor
    · intro h
      refine ⟨h, ?_, fun _ _ _ _ _ => rfl⟩
      rintro rfl
      cases h with
      | inside he h =>
        cases he with
        | here => cases h
        | there he => cases he with
          | here => cases h
          | there he => cases he with
            | here => cases h
            | there he => cases he
    · exact And.left

theorem linkTree_fresh (target : Text) : Fresh linkEnv ⟨linkFs target, []⟩ ["t".toList] where
  nothing p hp := by
    obtain ⟨r, rfl⟩ := hp
    show (if "t".toList = "s".toList then lookTree (fun _ _ _ => true) [] (linkTree target) r else none) = none
    exact if_neg (by decide)
  parents p hp hne := by
    cases p with
    | nil => rfl
    | cons n p =>
      obtain ⟨rfl, h⟩ := List.cons_prefix_cons.1 hp
      rw [List.prefix_nil.1 h] at hne
      exact absurd rfl hne
  apart := fun _ h => nomatch h
  outside := by decide
  names := by decide

/-- A mutant of a file that is an absolute symbolic link is written to the source tree. -/
theorem C68_links_false : ¬ C68_full := by
  intro hf
  have h : ((copyInto linkEnv (linkTree "/s/real.rs".toList) (linkFs "/s/real.rs".toList) ["t".toList]).bind fun fs =>
      fs.overwrite ["t".toList, "lib.rs".toList] "mutated".toList).map (fun fs => fs ["s".toList, "real.rs".toList]) =
      some (some (.file "mutated".toList)) := by decide +kernel
  obtain ⟨fs2, h, hv⟩ := Option.map_eq_some_iff.1 h
  obtain ⟨fs1, h1, h2⟩ := Option.bind_eq_some_iff.1 h
  have := hf linkEnv (linkFs "/s/real.rs".toList) ⟨fs2, [["t".toList]]⟩
    (.more (.more (.none _) (.copy _ ["t".toList] _ fs1 (linkTree_fresh _) (linkTree_now _) h1))
      (.write _ ["t".toList] ["lib.rs".toList] "mutated".toList fs2 (by simp) (by simp [linkEnv]) h2))
    ["s".toList, "real.rs".toList] (by simp [linkEnv])
  replace this := hv.symm.trans this
  revert this
  decide +kernel

/-- With a relative link the copy's own file is written. -/
example : ((copyInto linkEnv (linkTree "real.rs".toList) (linkFs "real.rs".toList) ["t".toList]).bind fun fs =>
      fs.overwrite ["t".toList, "lib.rs".toList] "mutated".toList).map
      (fun fs => [fs ["s".toList, "real.rs".toList], fs ["t".toList, "real.rs".toList], fs ["t".toList, "lib.rs".toList]]) =
    some [some (.file "fn f() {}".toList), some (.file "mutated".toList), some (.symlink "real.rs".toList)] := by decide +kernel

/-- A manifest that is an absolute link is fixed in the source tree. -/
example :
    let tree := sampleDir [("Cargo.toml", .symlink "/s/real.toml".toList), ("real.toml", .file "m".toList)]
    let fs : Fs := fun p => match p with
      | [] => some .dir
      | n :: p => if n = "s".toList then lookTree (fun _ _ _ => true) [] tree p else none
    (copyInto { linkEnv with
        parse := fun _ => some (.table [("dependencies".toList, .table [("x".toList, .table [("path".toList, .str "../x".toList)])])]),
        print := fun _ => "fixed".toList } tree fs ["t".toList]).map (fun fs => fs ["s".toList, "real.toml".toList]) =
      some (some (.file "fixed".toList)) := by decide +kernel

/-- And then no path leads out of the tree. -/
example : Stay linkEnv (linkFs "real.rs".toList) := by
  intro file hf
  rcases List.mem_cons.1 hf with rfl | hf
  · exact leaves_end (by decide) (by decide) (by decide +kernel) fun t h => by
      have e : linkFs "real.rs".toList ["s".toList, "Cargo.toml".toList] = some (.file "m".toList) := by decide +kernel
      cases e.symm.trans h
  rcases List.mem_cons.1 hf with rfl | hf
  · exact leaves_end (by decide) (by decide) (by decide +kernel) fun t h => by
      have e : linkFs "real.rs".toList ["s".toList, ".cargo".toList] = none := by decide +kernel
      cases e.symm.trans h
  · cases List.mem_singleton.1 hf
    intro h
    have h := leaves_link (target := "real.rs".toList) (by decide) (by decide) (by decide +kernel) (by decide) h
    revert h
    exact leaves_end (name := "real.rs".toList) (rest := []) (by decide) (by decide) (by decide +kernel) fun t h => by
      have e : linkFs "real.rs".toList ["s".toList, "real.rs".toList] = some (.file "fn f() {}".toList) := by decide +kernel
      cases e.symm.trans h

end CM.Props
