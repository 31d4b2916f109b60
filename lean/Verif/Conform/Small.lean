import Verif.Model.Shard
import Verif.Model.PathSafe
import Verif.Model.Cargo
import Verif.Model.Tokens
import Verif.Model.TailFile
import Verif.Model.Timeouts
/-! The unit tests of the program, run against the model. They are tests of the model and no proofs: each `example` is one
assertion of a `#[test]` function of `/repo/src`, whose name is given. -/
namespace CM.Conform
open CM

/-! ### `src/shard.rs` -/

-- `shard_from_str_valid_input`
example : Shard.fromStr "2/5".toList = some ⟨2, 5⟩ := by decide +kernel
-- `shard_from_str_invalid_input`
example : ["", "2", "2/0", "5/2"].map (fun s => Shard.fromStr s.toList) = [none, none, none, none] := by decide +kernel
-- `shard_select`
example : ((Shard.fromStr "1/4".toList).bind fun s => s.select (List.range 10)) = some [1, 5, 9] := by decide +kernel

/-! ### `src/span.rs` -/

def crlfSource : Text := "fn foo() {\r\n    wibble();\r\n}\r\n//hey!\r\n".toList
def quad (a b c d : Nat) : Span := ⟨⟨a, b⟩, ⟨c, d⟩⟩

-- `cut_before_crlf`
example : (quad 1 10 3 2).extract crlfSource = "{\r\n    wibble();\r\n}".toList := by decide +kernel
example : (quad 1 10 3 2).replace crlfSource "{}".toList = "fn foo() {}\r\n//hey!\r\n".toList := by decide +kernel
-- `empty_span_in_empty_string`
example : (quad 1 1 1 1).extract [] = [] ∧ (quad 1 1 1 1).replace [] "x".toList = "x".toList := by decide +kernel
-- `empty_span_at_start_of_string`
example : (quad 1 1 1 1).extract "hello".toList = [] ∧
    (quad 1 1 1 1).replace "hello".toList "x".toList = "xhello".toList := by decide +kernel
-- `empty_span_at_end_of_string`
example : (quad 1 6 1 6).extract "hello".toList = [] ∧
    (quad 1 6 1 6).replace "hello".toList "x".toList = "hellox".toList := by decide +kernel
-- `cut_including_crlf`
example : (quad 1 10 3 3).extract crlfSource = "{\r\n    wibble();\r\n}\r\n".toList := by decide +kernel
example : (quad 1 10 3 3).replace crlfSource "{}\r\n".toList = "fn foo() {}\r\n//hey!\r\n".toList := by decide +kernel
-- `span_ops`
def opsSource : Text := "\nfn foo() {\n    some();\n    stuff();\n}\n\nconst BAR: u32 = 32;\n".toList
example : (quad 2 10 5 2).extract opsSource = "{\n    some();\n    stuff();\n}".toList := by decide +kernel
example : (quad 2 10 5 2).replace opsSource "{ /* body deleted */ }".toList =
    "\nfn foo() { /* body deleted */ }\n\nconst BAR: u32 = 32;\n".toList := by decide +kernel
example : (quad 7 18 7 20).extract opsSource = "32".toList := by decide +kernel
example : (quad 7 18 7 20).replace opsSource "69".toList =
    "\nfn foo() {\n    some();\n    stuff();\n}\n\nconst BAR: u32 = 69;\n".toList := by decide +kernel

/-! ### `src/path.rs` -/

-- `path_slashes_drops_empty_parts`
example : toSlashPath (joinPath (components "/a/b/c/".toList) (components "d/e/f".toList)) = "/a/b/c/d/e/f".toList := by decide +kernel
-- `path_ascent`
example : [".", "..", "./..", "sub/dir", "sub/dir/../..", "sub/../sub/./..", "../back", "../back/../back",
      "../back/../../back/down"].map (fun p => ascent (components p.toList)) = [0, 1, 1, 0, 0, 0, 1, 1, 2] := by decide +kernel

/-! ### `src/process.rs` -/

-- `shell_quoting`
example : quoteArgv ["foo".toList] = "foo".toList := by decide +kernel
example : quoteArgv ["foo bar".toList, r"\blah\x".toList, r#""quoted""#.toList] = r#"foo\ bar \\blah\\x \"quoted\""#.toList := by
  decide +kernel
example : quoteArgv ["".toList] = "".toList := by decide +kernel
example : quoteArgv ["with whitespace".toList, "\r\n\t\t".toList] = r"with\ whitespace \r\n\t\t".toList := by decide +kernel

/-! ### `src/source.rs` -/

def imaginary : Package := { name := "imaginary-package".toList, version := "0.1.0".toList, relativeDir := [], topSources := [["src".toList, "lib.rs".toList]] }

-- `source_file_normalizes_crlf`
example : ((loadSource (fun p => if p = [["tmp".toList], ["lib.rs".toList]].flatten then
      some "fn main() {\r\n    640 << 10;\r\n}\r\n".toList else none) ["tmp".toList] ["lib.rs".toList] imaginary true).bind id).map
      (·.code) = some "fn main() {\n    640 << 10;\n}\n".toList := by decide +kernel
-- `skips_files_outside_of_workspace`
example : (loadSource (fun _ => none) ["unimportant".toList] (components "../outside_workspace.rs".toList) imaginary true).map
    (·.map (·.code)) = some none := by decide +kernel

/-! ### `src/output.rs` -/

-- `clean_filename_removes_special_characters`
example : cleanFilename "1/2\\3:4<5>6?7*8|9\"0".toList = "1__2_3_4_5_6_7_8_9_0".toList := by decide +kernel

/-! ### `src/outcome.rs` -/

-- `find_phase_result`
def twoPhases : ScenarioOutcome :=
  ⟨.baseline, [{ phase := .build, duration := 2000000000, status := .success, argv := ["cargo".toList, "build".toList] },
    { phase := .test, duration := 3000000000, status := .success, argv := ["cargo".toList, "test".toList] }]⟩
example : twoPhases.phaseResult .build =
    some { phase := .build, duration := 2000000000, status := .success, argv := ["cargo".toList, "build".toList] } := by decide +kernel
example : (twoPhases.phaseResult .build).map (secsOf ·.duration) = some 2 ∧ (twoPhases.phaseResult .test).map (secsOf ·.duration) = some 3 ∧
    twoPhases.phaseResult .check = none := by decide +kernel

/-! ### `src/pretty.rs` -/

def ids (s : String) : TokenTree := .ident s.toList
def pun (s : String) : Tokens := s.toList.map .punct

-- `pretty_format_examples`
example : pretty (pun "<" ++ [ids "impl", ids "Iterator", ids "for", ids "MergeTrees"] ++ pun "<" ++ [ids "AE"] ++ pun "," ++ [ids "BE"] ++
      pun "," ++ [ids "AIT"] ++ pun "," ++ [ids "BIT"] ++ pun ">>::" ++ [ids "next"] ++ pun "->" ++ [ids "Option"] ++ pun "<" ++
      [ids "Self"] ++ pun "::" ++ [ids "Item"] ++ pun ">") =
    "<impl Iterator for MergeTrees<AE, BE, AIT, BIT>>::next -> Option<Self::Item>".toList := by decide +kernel
example : pretty ([ids "Lex"] ++ pun "<'" ++ [ids "buf"] ++ pun ">::" ++ [ids "take"]) = "Lex<'buf>::take".toList := by decide +kernel
-- `format_trait_with_assoc_type`
example : pretty ([ids "impl", ids "Iterator"] ++ pun "<" ++ [ids "Item"] ++ pun "=" ++ [ids "String"] ++ pun ">") =
    "impl Iterator<Item = String>".toList := by decide +kernel
-- `format_thick_arrow`
example : pretty ([ids "a"] ++ pun "=>" ++ [ids "b"]) = "a => b".toList := by decide +kernel

/-! ### `src/tail_file.rs` -/

def ascii : Tail.Lib := ⟨fun b => b.map fun x => Char.ofNat x.toNat, fun c => c = ' ' || c = '\n' || c = '\r' || c = '\t'⟩
def bytes (s : String) : Tail.Bytes := s.toList.map fun c => UInt8.ofNat c.toNat

-- `last_line_of_file`
example : Tail.lastLine ascii [] = [] := by decide +kernel
example : Tail.lastLine ascii [.poll, .write (bytes "hello")] = "hello".toList := by decide +kernel
example : Tail.lastLine ascii [.poll, .write (bytes "hello"), .poll, .write (bytes "\n\n\n")] = "hello".toList := by decide +kernel
example : Tail.lastLine ascii [.poll, .write (bytes "hello"), .poll, .write (bytes "\n\n\n"), .poll, .write (bytes "that's all folks!\n")] =
    "that's all folks!".toList := by decide +kernel
example : Tail.lastLine ascii [.poll, .write (bytes "hello"), .poll, .write (bytes "\n\n\n"), .poll, .write (bytes "that's all folks!\n"),
    .poll, .write []] = "that's all folks!".toList := by decide +kernel

end CM.Conform
