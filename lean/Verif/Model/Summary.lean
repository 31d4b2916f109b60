import Verif.Model.Outcome
/-! The last line printed: `src/outcome.rs` `summary_string`, `src/console.rs` `plural`. -/
namespace CM

/-- `src/console.rs:649-655` `plural`. -/
def plural (n : Nat) (noun : Text) : Text :=
  if n = 1 then decimal n ++ " ".toList ++ noun else decimal n ++ " ".toList ++ noun ++ "s".toList

/-- `src/outcome.rs:123-137`: the non-zero counts. -/
def LabOutcome.byOutcome (l : LabOutcome) : List Text :=
  (if l.missed ≠ 0 then [decimal l.missed ++ " missed".toList] else []) ++
  (if l.caught ≠ 0 then [decimal l.caught ++ " caught".toList] else []) ++
  (if l.unviable ≠ 0 then [decimal l.unviable ++ " unviable".toList] else []) ++
  (if l.timeout ≠ 0 then [decimal l.timeout ++ " timeouts".toList] else []) ++
  (if l.success ≠ 0 then [decimal l.success ++ " succeeded".toList] else [])

/-- `src/outcome.rs:113-141` `summary_string`; `elapsed` is the printed duration, if times are shown. -/
def LabOutcome.summaryString (l : LabOutcome) (elapsed : Option Text) : Text :=
  (plural l.totalMutants "mutant".toList ++ " tested".toList) ++
  (match elapsed with | some t => " in ".toList ++ t | none => []) ++
  ": ".toList ++ joinWith ", ".toList l.byOutcome

end CM
