import Verif.Proofs.FnValue2
/-! Every type has a row in the table, and the code finds it. -/
namespace CM.Props
open CM CM.Spec

theorem map_row {f : Tokens → Tokens} {g : Text → Text} {reps : List Tokens}
    (h : ∀ r ∈ reps, pretty (f r) = g (pretty r)) : (reps.map f).map pretty = (reps.map pretty).map g := by
  rw [List.map_map, List.map_map]
  exact List.map_congr_left h

theorem flatMap_row {f : Tokens → List Tokens} {g : Text → List Text} : ∀ {reps : List Tokens},
    (∀ r ∈ reps, (f r).map pretty = g (pretty r)) → (reps.flatMap f).map pretty = (reps.map pretty).flatMap g
  | [], _ => rfl
  | r :: reps, h => by
    rw [List.flatMap_cons, List.map_append, List.map_cons, List.flatMap_cons, h r (by simp),
      flatMap_row fun x hx => h x (List.mem_cons_of_mem _ hx)]

/-! ### Every value ends with a word or group -/

theorem ended_call (n : String) (r : Tokens) : WordEnd (qCall n r) := ⟨[qi n], _, rfl, fun c => by simp [parens]⟩
theorem ended_pathCall (t : Text) (n : String) (r : Tokens) : WordEnd (qPathCall t n r) :=
  ⟨[.ident t] ++ colon2 ++ [qi n], parens r, by simp [qPathCall], fun c => by simp [parens]⟩
theorem ended_vec (r : Tokens) : WordEnd (qVec r) := ⟨[qi "vec", .punct '!'], _, rfl, fun c => by simp⟩
theorem ended_array (r : Tokens) : WordEnd (qArray r) := ⟨[], _, rfl, fun c => by simp⟩
theorem ended_parens (r : Tokens) : WordEnd [parens r] := ⟨[], _, rfl, fun c => by simp [parens]⟩
theorem ended_iter (n : String) (r : Tokens) : WordEnd (qIter n r) :=
  ⟨colon2 ++ [qi "std"] ++ colon2 ++ [qi "iter"] ++ colon2 ++ [qi n], parens r, by simp [qIter], fun c => by simp [parens]⟩
theorem ended_default : WordEnd qDefault := ended_pathCall "Default".toList "default" []
theorem ended_lit (a : Tokens) (s : String) : WordEnd (a ++ [ql s]) := .concat _ fun c => by simp [ql]
theorem ended_word (s : String) : WordEnd [qi s] := .concat [] fun c => by simp [qi]

theorem ended_path (errs : List Tokens) (p : SynPath (List Tokens)) : ∀ v ∈ pathReplacements errs p, WordEnd v := by
  unfold pathReplacements
  have two : ∀ {a b : Tokens}, WordEnd a → WordEnd b → ∀ v ∈ [a, b], WordEnd v := by
    intro a b ha hb v hv
    simp only [List.mem_cons, List.not_mem_nil, or_false] at hv
    rcases hv with rfl | rfl <;> assumption
  have three : ∀ {a b c : Tokens}, WordEnd a → WordEnd b → WordEnd c → ∀ v ∈ [a, b, c], WordEnd v := by
    intro a b c ha hb hc v hv
    simp only [List.mem_cons, List.not_mem_nil, or_false] at hv
    rcases hv with rfl | rfl | rfl <;> assumption
  have one : ∀ {a : Tokens}, WordEnd a → ∀ v ∈ [a], WordEnd v := by
    intro a ha v hv; rw [List.mem_singleton] at hv; rwa [hv]
  have mp : ∀ {f : Tokens → Tokens} {l : List Tokens}, (∀ r, WordEnd (f r)) → ∀ v ∈ l.map f, WordEnd v := by
    intro f l hf v hv
    obtain ⟨r, -, rfl⟩ := List.mem_map.1 hv; exact hf r
  have cons : ∀ {a : Tokens} {l : List Tokens}, WordEnd a → (∀ v ∈ l, WordEnd v) → ∀ v ∈ a :: l, WordEnd v := by
    intro a l ha hl v hv
    rcases List.mem_cons.1 hv with rfl | hv
    · exact ha
    · exact hl v hv
  have fm : ∀ {f : Tokens → List Tokens} {l : List Tokens}, (∀ r, ∀ v ∈ f r, WordEnd v) → ∀ v ∈ l.flatMap f, WordEnd v := by
    intro f l hf v hv
    obtain ⟨r, -, hr⟩ := List.mem_flatMap.1 hv; exact hf r v hr
  have ite : ∀ {c : Bool} {l m : List Tokens}, (∀ v ∈ l, WordEnd v) → (∀ v ∈ m, WordEnd v) →
      ∀ v ∈ (if c then l else m), WordEnd v := by
    intro c l m hl hm; cases c
    · exact hm
    · exact hl
  refine ite ?_ ?_
  · exact two (ended_word _) (ended_word _)
  refine ite ?_ ?_
  · exact two (ended_pathCall _ _ _) ⟨[ql "\"xyzzy\"", .punct '.', qi "into"], _, rfl, fun c => by simp [parens]⟩
  refine ite ?_ ?_
  · exact two (ended_lit [] _) (ended_lit [] _)
  refine ite ?_ ?_
  · exact two (ended_lit [] _) (ended_lit [] _)
  refine ite ?_ ?_
  · exact three (ended_lit [] _) (ended_lit [] _) (ended_lit [_] _)
  refine ite ?_ ?_
  · exact two (ended_lit [] _) (ended_lit [_] _)
  refine ite ?_ ?_
  · exact one (ended_lit [] _)
  refine ite ?_ ?_
  · exact three (ended_lit [] _) (ended_lit [] _) (ended_lit [_] _)
  refine ite ?_ ?_
  · intro v hv
    rcases List.mem_append.1 hv with hv | hv
    · cases h : matchFirstTypeArg p "Result".toList with
      | some ok => rw [h] at hv; exact mp (ended_call _) v hv
      | none => rw [h] at hv; exact one (ended_call _ _) v hv
    · exact mp (ended_call _) v hv
  refine ite ?_ ?_
  · exact one ⟨qPathCall "HttpResponse".toList "Ok" [] ++ [.punct '.', qi "finish"], parens [], by simp, fun c => by simp [parens]⟩
  cases matchFirstTypeArg p "Option".toList with
  | some x => exact cons (ended_word _) (mp (ended_call _))
  | none =>
  cases matchFirstTypeArg p "Vec".toList with
  | some x => exact cons (ended_vec _) (mp ended_vec)
  | none =>
  cases matchFirstTypeArg p "Cow".toList with
  | some x => exact fm fun r => two (ended_pathCall _ _ _) (ended_pathCall _ _ _)
  | none =>
  cases knownContainer p with
  | some x => exact mp (ended_pathCall _ _)
  | none =>
  cases knownCollection p with
  | some x => exact cons (ended_pathCall _ _ _) (mp fun r => ended_pathCall _ _ _)
  | none =>
  cases knownMap p with
  | some x => exact cons (ended_pathCall _ _ _) (fm fun r => mp fun r => ended_pathCall _ _ _)
  | none =>
  cases maybeCollectionOrContainer p with
  | some x => exact cons (ended_pathCall _ _ _) (fm fun r => three (ended_pathCall _ _ _) (ended_pathCall _ _ _)
      (ended_pathCall _ _ _))
  | none =>
  exact one ended_default

theorem ended_slice (l : List Tokens) : ∀ v ∈ sliceReplacements l, WordEnd v := by
  intro v hv
  rcases List.mem_cons.1 hv with rfl | hv
  · exact ended_pathCall _ _ _
  · obtain ⟨r, -, rfl⟩ := List.mem_map.1 hv; exact ended_pathCall _ _ _

theorem ended (errs : List Tokens) : ∀ (t : Ty), ∀ v ∈ typeReplacements errs t, WordEnd v
  | .path p, v, hv => ended_path errs _ v (by rwa [typeReplacements] at hv)
  | .array e len, v, hv => by
    rw [typeReplacements] at hv
    obtain ⟨r, -, rfl⟩ := List.mem_map.1 hv; exact ended_array _
  | .slice e, v, hv => ended_slice _ v (by rwa [typeReplacements] at hv)
  | .reference m e, v, hv => by
    have key : ∀ v ∈ typeReplacements errs e, WordEnd v := ended errs e
    have amp : ∀ {l : List Tokens}, (∀ v ∈ l, WordEnd v) →
        ∀ v ∈ l.map (fun rep => TokenTree.punct '&' :: rep), WordEnd v := by
      intro l hl v hv
      obtain ⟨r, hr, rfl⟩ := List.mem_map.1 hv
      exact WordEnd.append [.punct '&'] (hl r hr)
    cases m with
    | false =>
      cases e with
      | path p =>
        simp only [typeReplacements] at hv
        split at hv
        · simp only [List.mem_cons, List.not_mem_nil, or_false] at hv
          rcases hv with rfl | rfl <;> exact ended_lit [] _
        · exact amp (fun v hv => key v (by rwa [typeReplacements])) v hv
      | slice e => rw [typeReplacements] at hv; exact ended_slice _ v hv
      | _ => rw [typeReplacements] at hv <;> first | exact amp key v hv | (intros; contradiction)
    | true =>
      cases e with
      | slice e => rw [typeReplacements] at hv; exact ended_slice _ v hv
      | _ =>
        rw [typeReplacements] at hv <;> first
          | (obtain ⟨r, -, rfl⟩ := List.mem_map.1 hv; exact ended_pathCall _ _ _) | (intros; contradiction)
  | .tuple ts, v, hv => by
    rw [typeReplacements] at hv
    obtain ⟨r, -, rfl⟩ := List.mem_map.1 hv; exact ended_parens _
  | .implTrait bs, v, hv => by
    rw [typeReplacements] at hv
    split at hv
    · rcases List.mem_cons.1 hv with rfl | hv
      · exact ended_iter _ _
      · obtain ⟨r, -, rfl⟩ := List.mem_map.1 hv; exact ended_iter _ _
    · cases hv
  | .never, v, hv => by rw [typeReplacements] at hv; cases hv
  | .other, v, hv => by
    rw [typeReplacements, List.mem_singleton] at hv; rw [hv]; exact ended_default

end CM.Props
