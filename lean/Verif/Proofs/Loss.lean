import Verif.Proofs.Join
/-! Which mutants are lost when threads fail. -/
namespace CM.Join
open CM.Lab CM.Spec

theorem hadMutant_append {cfg es i m} (h : HadMutant cfg es i m) (rest : List Event) : HadMutant cfg (es ++ rest) i m := by
  obtain ⟨es1, es2, s1, pc, rfl, h⟩ := h
  exact ⟨es1, es2 ++ rest, s1, pc, by simp, h⟩

theorem filterMap_update {α} (f : Nat → Option α) (x : Option α) (i : Nat) (l : List Nat) (hn : l.Nodup) (hi : i ∈ l)
    (hf : f i = none) : (l.filterMap fun j => if j = i then x else f j).Perm (x.toList ++ l.filterMap f) := by
  induction l with
  | nil => cases hi
  | cons j l ih =>
    rw [List.nodup_cons] at hn
    by_cases hji : j = i
    · subst hji
      have e : ∀ l : List Nat, j ∉ l → (l.filterMap fun k => if k = j then x else f k) = l.filterMap f := by
        intro l hl
        induction l with
        | nil => rfl
        | cons k l ih =>
          rw [List.mem_cons, not_or] at hl
          simp only [List.filterMap_cons, if_neg (Ne.symm hl.1), ih hl.2]
      have e := e l hn.1
      cases x <;> simp [hf, e]
    · have hi' : i ∈ l := by
        rcases List.mem_cons.1 hi with h | h
        · exact absurd h.symm hji
        · exact h
      have := ih hn.2 hi'
      cases hfj : f j with
      | none => simpa [hji, hfj] using this
      | some a =>
        have e1 : ((j :: l).filterMap fun k => if k = i then x else f k) =
            a :: l.filterMap fun k => if k = i then x else f k := by simp [hji, hfj]
        have e2 : (j :: l).filterMap f = a :: l.filterMap f := by simp [hfj]
        rw [e1, e2]
        exact (this.cons a).trans List.perm_middle.symm

/-- The mutants that failed threads had, by thread. -/
def Lost (cfg : Config) (es : List Event) (s : State) (f : Nat → Option Mutant) : Prop :=
  (recordedMutants s.lab.sh.out.lab.outcomes ++ s.lab.workers.filterMap Pc.inHand ++ s.lab.sh.queue ++
    (List.range s.lab.workers.length).filterMap f).Perm cfg.mutants ∧
  ∀ i m, f i = some m → (∃ d, s.lab.workers[i]? = some (.failed (some d))) ∧
    s.held i ≠ .panic (some .unreadableLog) ∧ HadMutant cfg es i m

theorem inHand_scenario {pc : Pc} {m} (h : pc.inHand = some m) : pc.scenario = some (.mutant m) := by
  cases pc with
  | taken d sc => cases sc <;> simp_all [Pc.inHand, Pc.scenario]
  | logged d sc => cases sc <;> simp_all [Pc.inHand, Pc.scenario]
  | started d sc => cases sc <;> simp_all [Pc.inHand, Pc.scenario]
  | diffed d sc => cases sc <;> simp_all [Pc.inHand, Pc.scenario]
  | ready d sc => cases sc <;> simp_all [Pc.inHand, Pc.scenario]
  | command d sc => cases sc <;> simp_all [Pc.inHand, Pc.scenario]
  | failing d sc => cases sc <;> simp_all [Pc.inHand, Pc.scenario]
  | reverted d sc => cases sc <;> simp_all [Pc.inHand, Pc.scenario]
  | _ => cases h

/-- A thread that fails with a mutant in hand has a directory. -/
theorem inHand_failed {cfg sh c pc sh' pc' m} (h : WStep cfg sh c pc sh' pc') (hm : pc.inHand = some m)
    (hf : pc'.isFailed = true) : ∃ d, pc' = .failed (some d) := by
  cases h
  case apply h => rcases h.pc with rfl | rfl <;> first | exact ⟨_, rfl⟩ | cases hf
  case revert h => rcases h.pc with rfl | rfl <;> first | exact ⟨_, rfl⟩ | cases hf
  case failRevert h => rcases h.pc with rfl | rfl <;> first | exact ⟨_, rfl⟩ | cases hf
  all_goals first
    | exact ⟨_, rfl⟩
    | (cases hf; done)
    | (cases hm; done)
    | (split at hf <;> cases hf; done)

theorem lost {cfg es s} (h : exec cfg (init cfg) es = some s) : ∃ f, Lost cfg es s f := by
  refine exec_induction (P := fun es s => ∃ f, Lost cfg es s f) ⟨fun _ => none, ?_, by simp⟩ ?_ h
  · simp [init, Lab.init, recordedMutants]
  intro es s ev s' hx ⟨f, hp, hf⟩ hst
  have hr := lab_of_exec hx
  have hshape := reachable_shape hr
  have ht := trace hx
  cases ev with
  | interrupt =>
    unfold step at hst
    obtain ⟨l, h1, h2⟩ := Option.bind_eq_some_iff.1 hst
    cases h2
    simp only [Event.lab, Lab.step] at h1
    split at h1
    · cases h1
    · cases h1
      exact ⟨f, hp, fun i m him => ⟨(hf i m him).1, (hf i m him).2.1, hadMutant_append (hf i m him).2.2 _⟩⟩
  | main ok why =>
    obtain ⟨l, hm, hwhy, rfl⟩ := main_step hst
    have same : l.workers = s.lab.workers → l.sh.out = s.lab.sh.out → l.sh.queue = s.lab.sh.queue →
        ∃ f, Lost cfg (es ++ [.main ok why]) (s.mainStep why l) f := by
      intro h1 h2 h3
      refine ⟨f, ?_, ?_⟩
      · rw [mainStep_lab, h1, h2, h3]; exact hp
      · intro i m him
        rw [mainStep_lab, mainStep_held, h1]
        exact ⟨(hf i m him).1, (hf i m him).2.1, hadMutant_append (hf i m him).2.2 _⟩
    -- threads are replaced while none has failed or holds a mutant
    have fresh : (∀ pc ∈ s.lab.workers, pc.isFailed = false ∧ pc.inHand = none) → (∀ pc ∈ l.workers, pc.inHand = none) →
        l.sh.out = s.lab.sh.out → l.sh.queue = s.lab.sh.queue →
        ∃ f, Lost cfg (es ++ [.main ok why]) (s.mainStep why l) f := by
      intro h1 h2 h3 h4
      refine ⟨fun _ => none, ?_, by simp⟩
      rw [mainStep_lab, h3, h4]
      have e1 : l.workers.filterMap Pc.inHand = [] := List.filterMap_eq_nil_iff.2 h2
      have e2 : s.lab.workers.filterMap Pc.inHand = [] := List.filterMap_eq_nil_iff.2 fun pc hpc => (h1 pc hpc).2
      have e3 : (List.range s.lab.workers.length).filterMap f = [] := by
        rw [List.filterMap_eq_nil_iff]
        intro i hi
        cases hfi : f i with
        | none => rfl
        | some m =>
          obtain ⟨⟨d, hd⟩, _⟩ := hf i m hfi
          have := (h1 _ (List.mem_of_getElem? hd)).1
          cases this
      have e4 : (List.range l.workers.length).filterMap (fun _ => (none : Option Mutant)) = [] := by simp
      rw [e1, e4]
      rw [e2, e3] at hp
      exact hp
    have spawned : ∀ d, ∀ pc ∈ (spawn cfg s.lab d).workers, pc.inHand = none := by
      intro d pc hpc
      simp [spawn] at hpc
      rw [hpc.2]
      rfl
    cases mstep_rel hm
    case prepare hs he =>
      have hw : s.lab.workers = [] := by have := hshape.count; rwa [hs] at this
      refine fresh (by simp [hw]) ?_ rfl rfl
      intro pc hpc
      simp only [List.mem_singleton] at hpc
      subst hpc
      split <;> rfl
    case baseline hs d hw hb =>
      exact fresh (by rw [hw]; simp [Pc.isFailed, Pc.inHand]) (by simp [Pc.inHand]) rfl rfl
    case skipBaseline hs d hw hb =>
      exact fresh (by rw [hw]; simp [Pc.isFailed, Pc.inHand]) (spawned d) rfl rfl
    case passed hs d o hw ho =>
      exact fresh (by rw [hw]; simp [Pc.isFailed, Pc.inHand]) (spawned d) rfl rfl
    all_goals exact same rfl rfl rfl
  | worker i c e =>
    obtain ⟨pc, sh', pc', hpc, hw, he, rfl⟩ := worker_step hst
    have hrel := wstep_rel hw
    have hlt : i < s.lab.workers.length := (List.getElem?_eq_some_iff.1 hpc).1
    have hnew : (s.lab.workers.set i pc')[i]? = some pc' := List.getElem?_set_self hlt
    have hpf : pc.isFailed = false := by cases pc <;> first | rfl | cases hw
    have hfi : f i = none := by
      cases hfi : f i with
      | none => rfl
      | some m =>
        obtain ⟨⟨d, hd⟩, _⟩ := hf i m hfi
        rw [hpc] at hd
        cases hd
        cases hpf
    have others : ∀ j m, f j = some m →
        (∃ d, (s.lab.workers.set i pc')[j]? = some (.failed (some d))) ∧
        (if j = i then hold cfg s.lab.sh c e (s.held i) pc pc' else s.held j) ≠ .panic (some .unreadableLog) ∧
        HadMutant cfg (es ++ [.worker i c e]) j m := by
      intro j m hj
      have hji : j ≠ i := by rintro rfl; rw [hfi] at hj; cases hj
      obtain ⟨⟨d, hd⟩, h2, h3⟩ := hf j m hj
      rw [if_neg hji, List.getElem?_set_ne (Ne.symm hji)]
      exact ⟨⟨d, hd⟩, h2, hadMutant_append h3 _⟩
    obtain ⟨rest, hr1, hr2⟩ := filterMap_set_perm Pc.inHand pc' hpc
    have hc1 : ∀ m, (recordedMutants s.lab.sh.out.lab.outcomes).count m +
        (pc.inHand.toList.count m + rest.count m) + s.lab.sh.queue.count m +
        ((List.range s.lab.workers.length).filterMap f).count m = cfg.mutants.count m := by
      intro m
      have := hp.count_eq m
      simp only [List.count_append] at this
      rw [hr1.count_eq m, List.count_append] at this
      exact this
    have goal : ∀ f' : Nat → Option Mutant, (∀ m, (recordedMutants sh'.out.lab.outcomes).count m +
        (pc'.inHand.toList.count m + rest.count m) + sh'.queue.count m +
        ((List.range s.lab.workers.length).filterMap f').count m = cfg.mutants.count m) →
        (recordedMutants sh'.out.lab.outcomes ++ (s.lab.workers.set i pc').filterMap Pc.inHand ++
          sh'.queue ++ (List.range (s.lab.workers.set i pc').length).filterMap f').Perm cfg.mutants := by
      intro f' h
      rw [List.perm_iff_count]
      intro m
      simp only [List.count_append, List.length_set]
      rw [hr2.count_eq m, List.count_append]
      exact h m
    rcases hrel.hand with ⟨d, m, rfl, rfl, hq, ho⟩ | ⟨hq, ho, hh⟩ | ⟨hq, d, sc, rs, rfl, ho, hh⟩
    · refine ⟨f, goal f fun m' => ?_, others⟩
      have := hc1 m'
      rw [hq] at this
      simp only [Pc.inHand, Option.toList_none, Option.toList_some, List.count_cons, List.count_nil, ho] at this ⊢
      omega
    · by_cases hlose : pc'.isFailed = true ∧ ∃ m, pc.inHand = some m
      · obtain ⟨hfail, m, hm⟩ := hlose
        obtain ⟨d, rfl⟩ := inHand_failed hrel hm hfail
        refine ⟨fun j => if j = i then some m else f j, goal _ fun m' => ?_, ?_⟩
        · have := hc1 m'
          have hu := (filterMap_update f (some m) i _ List.nodup_range (List.mem_range.2 hlt) hfi).count_eq m'
          rw [List.count_append] at hu
          rw [hu, hq, ho]
          rw [hm] at this
          simp only [Pc.inHand, Option.toList_none, List.count_nil]
          omega
        · intro j m' hj
          simp only at hj
          split at hj
          · rename_i hji
            subst hji
            cases hj
            refine ⟨⟨d, hnew⟩, ?_, ?_⟩
            · simp only [if_true]
              intro hpan
              have hnp : ∀ k, s.held j ≠ .panic k := by
                intro k hk
                by_cases hf : Failing pc
                · have : ∃ d sc, pc = .failing d sc := by
                    cases pc <;> first | exact ⟨_, _, rfl⟩ | exact hf.elim | (cases hpf; done)
                  obtain ⟨e, he⟩ := (ht.holds j pc hpc).failing this
                  rw [hk] at he; cases he
                · have := (ht.holds j pc hpc).fine hf
                  rw [hk] at this; cases this
              obtain ⟨k', hk1, hk2⟩ := ((hold_facts (e := e) hw (ht.holds j pc hpc) hnp).2.2 _).1 hpan
              cases hk1
              obtain ⟨_, d', sc, rs, rfl⟩ := unreadable_recorded hk2
              cases hm
            · exact ⟨es, [.worker j c e], s, pc, rfl, hx, hpc, inHand_scenario hm⟩
          · exact others j m' hj
      · have hsame : pc'.inHand = pc.inHand := by
          rcases hh with hh | hh
          · exact hh
          · have h1 : pc'.inHand = none := by cases pc' <;> first | rfl | cases hh
            cases hm : pc.inHand with
            | none => exact h1
            | some m => exact absurd ⟨hh, m, hm⟩ hlose
        refine ⟨f, goal f fun m' => ?_, others⟩
        rw [hsame, hq, ho]
        exact hc1 m'
    · refine ⟨f, goal f fun m' => ?_, others⟩
      have := hc1 m'
      rw [hq, hh, add_outcomes ho]
      cases sc with
      | baseline =>
        simp only [recordedMutants, List.filterMap_append, List.count_append, List.filterMap_cons,
          List.filterMap_nil, Pc.inHand, Option.toList_none, List.count_nil] at this ⊢
        omega
      | mutant m =>
        simp only [recordedMutants, List.filterMap_append, List.count_append, List.filterMap_cons,
          List.filterMap_nil, Pc.inHand, Option.toList_none, Option.toList_some, List.count_nil] at this ⊢
        omega

end CM.Join
