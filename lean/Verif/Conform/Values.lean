import Verif.Model.FnValue
import Verif.Model.Glob
/-! The unit tests of function values and globs, run against the model; see `Small.lean`. -/
namespace CM.Conform
open CM

/-! ### `src/fnvalue.rs` -/

/-- A path with arguments for its last segment; the others have none. -/
def pathTo (names : List String) (args : PathArgs Ty := .none) : SynPath Ty :=
  ⟨false, names.dropLast.map (fun n => ⟨n.toList, .none⟩) ++ (names.getLast?.toList.map fun n => ⟨n.toList, args⟩)⟩
def named (n : String) : Ty := .path (pathTo [n])
def generic (names : List String) (args : List (GenericArg Ty)) : Ty := .path (pathTo names (.angle args))
def of (names : List String) (arg : Ty) : Ty := generic names [.type arg]
/-- `check_replacements` -/
def values (errs : List Tokens) (t : Ty) : List Text := (returnTypeReplacements (some t) errs).map pretty
def tx (l : List String) : List Text := l.map String.toList
def anyhowMutated : Tokens := [qi "anyhow", .punct '!', parens [ql "\"mutated\""]]

-- `recurse_into_result_bool`
example : values [] (of ["std", "result", "Result"] (named "bool")) = tx ["Ok(true)", "Ok(false)"] := by decide +kernel
-- `recurse_into_result_result_bool_with_error_values`
example : values [anyhowMutated] (of ["std", "result", "Result"] (of ["Result"] (named "bool"))) =
    tx ["Ok(Ok(true))", "Ok(Ok(false))", "Ok(Err(anyhow!(\"mutated\")))", "Err(anyhow!(\"mutated\"))"] := by decide +kernel
-- `u16_replacements`, `isize_replacements`
example : values [] (named "u16") = tx ["0", "1"] ∧ values [] (named "isize") = tx ["0", "1", "-1"] := by decide +kernel
-- `nonzero_integer_replacements`
example : values [] (.path (pathTo ["std", "num", "NonZeroIsize"])) = tx ["1", "-1"] := by decide +kernel
example : values [] (.path (pathTo ["std", "num", "NonZeroUsize"])) = tx ["1"] := by decide +kernel
example : values [] (.path (pathTo ["std", "num", "NonZeroU32"])) = tx ["1"] := by decide +kernel
-- `unit_replacement`
example : values [] (.tuple []) = tx ["()"] := by decide +kernel
-- `result_unit_replacement`
example : values [] (generic ["Result"] [.type (.tuple []), .type (named "Error")]) = tx ["Ok(())"] := by decide +kernel
example : values [] (of ["Result"] (.tuple [])) = tx ["Ok(())"] := by decide +kernel
-- `http_response_replacement`
example : values [] (named "HttpResponse") = tx ["HttpResponse::Ok().finish()"] := by decide +kernel
-- `option_usize_replacement`
example : values [] (of ["Option"] (named "usize")) = tx ["None", "Some(0)", "Some(1)"] := by decide +kernel
-- `box_usize_replacement`, `box_unrecognized_type_replacement`
example : values [] (of ["Box"] (named "usize")) = tx ["Box::new(0)", "Box::new(1)"] := by decide +kernel
example : values [] (of ["Box"] (named "MyObject")) = tx ["Box::new(Default::default())"] := by decide +kernel
-- `vec_string_replacement`
example : values [] (of ["std", "vec", "Vec"] (named "String")) = tx ["vec![]", "vec![String::new()]", "vec![\"xyzzy\".into()]"] := by
  decide +kernel
-- `float_replacement`
example : values [] (named "f32") = tx ["0.0", "1.0", "-1.0"] := by decide +kernel
-- `ref_replacement_recurses`
example : values [] (.reference false (named "bool")) = tx ["&true", "&false"] := by decide +kernel
-- `array_replacement`
example : values [] (.array (named "u8") [ql "256"]) = tx ["[0; 256]", "[1; 256]"] := by decide +kernel
-- `arc_replacement`, `rc_replacement`
example : values [] (of ["alloc", "sync", "Arc"] (named "String")) = tx ["Arc::new(String::new())", "Arc::new(\"xyzzy\".into())"] := by
  decide +kernel
example : values [] (of ["alloc", "sync", "Rc"] (named "String")) = tx ["Rc::new(String::new())", "Rc::new(\"xyzzy\".into())"] := by
  decide +kernel
-- `match_known_collection`
example : knownCollection (pathTo ["std", "collections", "VecDeque"] (.angle [.type (named "String")])) =
    some ("VecDeque".toList, named "String") := rfl
example : knownCollection (pathTo ["std", "collections", "BinaryHeap"] (.angle [.type (.tuple [named "u32", named "u32"])])) =
    some ("BinaryHeap".toList, .tuple [named "u32", named "u32"]) := rfl
example : knownCollection (pathTo ["LinkedList"] (.angle [.type (.array (named "u8") [ql "256"])])) =
    some ("LinkedList".toList, .array (named "u8") [ql "256"]) := rfl
example : knownCollection (pathTo ["Arc"] (.angle [.type (named "String")])) = none := rfl
example : knownCollection (pathTo ["Wibble"] (.angle [.type (.reference false (named "str"))])) = none := rfl
-- `match_known_map`, `match_map`
example : knownMap (pathTo ["std", "collections", "BTreeMap"] (.angle [.type (named "String"), .type (named "usize")])) =
    some ("BTreeMap".toList, named "String", named "usize") := rfl
example : knownMap (pathTo ["std", "collections", "HashMap"] (.angle [.type (.tuple [named "usize", named "usize"]), .type (named "bool")])) =
    some ("HashMap".toList, .tuple [named "usize", named "usize"], named "bool") := rfl
example : knownMap (pathTo ["Option"] (.angle [.type (.tuple [named "usize", named "usize"])])) = none := rfl
example : knownMap (pathTo ["MyMap"] (.angle [.type (named "String"), .type (named "usize")])) = none := rfl
example : knownMap (pathTo ["Pair"] (.angle [.type (named "String"), .type (named "usize")])) = none := rfl
-- `btreeset_replacement`
example : values [] (of ["std", "collections", "BTreeSet"] (named "String")) =
    tx ["BTreeSet::new()", "BTreeSet::from_iter([String::new()])", "BTreeSet::from_iter([\"xyzzy\".into()])"] := by decide +kernel
-- `cow_generates_borrowed_and_owned`
example : values [] (generic ["Cow"] [.lifetime, .type (named "str")]) =
    tx ["Cow::Borrowed(\"\")", "Cow::Owned(\"\".to_owned())", "Cow::Borrowed(\"xyzzy\")", "Cow::Owned(\"xyzzy\".to_owned())"] := by
  decide +kernel
-- `unknown_container_replacement`
example : values [] (generic ["UnknownContainer"] [.lifetime, .type (named "str")]) =
    tx ["UnknownContainer::new()", "UnknownContainer::from_iter([\"\"])", "UnknownContainer::new(\"\")", "UnknownContainer::from(\"\")",
      "UnknownContainer::from_iter([\"xyzzy\"])", "UnknownContainer::new(\"xyzzy\")", "UnknownContainer::from(\"xyzzy\")"] := by decide +kernel
-- `tuple_combinations`, `tuple_combination_longer`
example : values [] (.tuple [named "bool", named "usize"]) = tx ["(true, 0)", "(true, 1)", "(false, 0)", "(false, 1)"] := by decide +kernel
example : values [] (.tuple [named "bool", of ["Option"] (named "String")]) =
    tx ["(true, None)", "(true, Some(String::new()))", "(true, Some(\"xyzzy\".into()))", "(false, None)", "(false, Some(String::new()))",
      "(false, Some(\"xyzzy\".into()))"] := by decide +kernel
-- `iter_replacement`
example : values [] (.implTrait [.trait (pathTo ["Iterator"] (.angle [.assocType "Item".toList (named "String")]))]) =
    tx ["::std::iter::empty()", "::std::iter::once(String::new())", "::std::iter::once(\"xyzzy\".into())"] := by decide +kernel
-- `impl_matches_iterator`
example : matchImplIterator [.trait (pathTo ["std", "iter", "Iterator"] (.angle [.assocType "Item".toList (named "String")]))] =
    some (named "String") := rfl
example : matchImplIterator [.trait (pathTo ["Iterator"] (.angle [.assocType "Item".toList (named "String")]))] =
    some (named "String") := rfl
example : matchImplIterator [.trait (pathTo ["Iterator"])] = none := rfl
example : matchImplIterator [.trait (pathTo ["Borrow"] (.angle [.type (named "String")]))] = none := rfl
-- `slice_replacement`
example : values [] (.slice (named "u8")) = tx ["Vec::leak(Vec::new())", "Vec::leak(vec![0])", "Vec::leak(vec![1])"] := by decide +kernel
-- `btreemap_replacement`
example : values [] (generic ["BTreeMap"] [.type (named "String"), .type (named "bool")]) =
    tx ["BTreeMap::new()", "BTreeMap::from_iter([(String::new(), true)])", "BTreeMap::from_iter([(String::new(), false)])",
      "BTreeMap::from_iter([(\"xyzzy\".into(), true)])", "BTreeMap::from_iter([(\"xyzzy\".into(), false)])"] := by decide +kernel

/-! ### `src/glob.rs` -/

/-- What the set of these globs says about each of the paths. -/
def globs (gs : List String) (paths : List String) : Option (List Bool) :=
  ((Glob.buildGlobSet (tx gs)).bind id).map fun set => paths.map fun p => Glob.setMatches set p.toList

-- `empty_globs`
example : Glob.buildGlobSet [] = some none := by decide +kernel
-- `literal_filename_matches_anywhere`
example : globs ["foo.rs"] ["foo.rs", "src/foo.rs", "src/bar/foo.rs", "src/bar/foo.rs~", "src/bar/bar.rs"] =
    some [true, true, true, false, false] := by decide +kernel
-- `filename_matches_directories_and_their_contents`
example : globs ["console"] ["console", "src/console", "src/bar/console", "src/bar/console/mod.rs", "src/console/ansi.rs"] =
    some [true, true, true, true, true] := by decide +kernel
-- `glob_without_slash_matches_filename_anywhere`
example : globs ["*.rs"] ["foo.rs", "src/foo.rs", "src/bar/foo.rs", "src/bar/foo.rs~", "src/bar/bar.rs"] =
    some [true, true, true, false, true] := by decide +kernel
-- `set_with_multiple_filenames`
example : globs ["foo.rs", "bar.rs"] ["foo.rs", "bar.rs", "baz.rs"] = some [true, true, false] := by decide +kernel
-- `glob_with_slashes_matches_whole_path`
example : globs ["src/*.rs"] ["foo.rs", "src/foo.rs", "src/bar/foo.rs", "src/foo.rs~", "other/src/bar.rs"] =
    some [false, true, false, false, false] := by decide +kernel
-- `starstar_at_start_of_path_matches_anywhere`
example : globs ["**/foo.rs"] ["foo.rs", "src/foo.rs", "src/bar/foo.rs", "some/other/src/bar/foo.rs", "src/bar/foo.rs~", "src/bar/bar.rs",
    "foo.rs/bar/bar.rs"] = some [true, true, true, true, false, false, false] := by decide +kernel
-- `starstar_within_path_matches_zero_or_more_directories`
example : globs ["src/**/f*.rs"] ["foo.rs", "src/foo.rs", "src/bar/foo.rs", "src/bar/freq.rs", "some/other/src/bar/foo.rs", "src/bar/foo.rs~",
    "src/bar/bar.rs", "foo.rs/bar/bar.rs"] = some [false, true, true, true, false, false, false, false] := by decide +kernel
-- `on_unix_backslash_is_escape`
example : globs ["src\\*.rs"] ["src/foo.rs", "src*.rs"] = some [false, true] := by decide +kernel

end CM.Conform
