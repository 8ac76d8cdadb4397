import Mathlib.Data.List.Basic
/-
Model of the script `find_examples.py`, which writes the file `examples.sh` that runs all examples
(`.github/workflows/run-tests.yml:41-45`).

Texts are lists of characters. A directory is the list that `os.listdir` returns, in any order. A file is the text that
Python reads (after decoding and the translation of line ends; a file that cannot be read or decoded is not modelled).
`none` is an exception: nothing is written then. Not modelled: the parser of the command line (`find_examples.py:18-21`),
the path of the directory (`:27`, `:30`).
-/
namespace Bempp

/-- A Python string. `find_examples.py:15-82`. -/
abbrev PyText := List Char

/-- What `os.listdir` and `os.path.isfile` tell about a directory, and what is in the files. `find_examples.py:31-36,45-46`. -/
structure DirEntry where
  name : PyText
  isFile : Bool
  text : PyText
deriving DecidableEq

/-- The pieces of `s.split(pat)` (`pat` not empty), after `skip` characters have been passed over.
Python's `str.split(sep)`, `find_examples.py:25,63`. -/
def pySplitGo (pat : PyText) : Nat → PyText → List PyText
  | _, [] => [[]]
  | k + 1, _ :: s => pySplitGo pat k s
  | 0, c :: s =>
    if pat.isPrefixOf (c :: s) then [] :: pySplitGo pat (pat.length - 1) s
    else
      match pySplitGo pat 0 s with
      | [] => [[c]]
      | p :: ps => (c :: p) :: ps

/-- `s.split(pat)`. `find_examples.py:25,63`. -/
def pySplit (pat s : PyText) : List PyText := pySplitGo pat 0 s

/-- `sep.join(pieces)`. `find_examples.py:64,66,82`. -/
def pyJoin (sep : PyText) : List PyText → PyText
  | [] => []
  | [p] => p
  | p :: q :: ps => p ++ sep ++ pyJoin sep (q :: ps)

/-- `s.replace(pat, new)`: Python replaces the occurrences at which `split` splits. `find_examples.py:75`. -/
def pyReplace (pat new s : PyText) : PyText := pyJoin new (pySplit pat s)

/-- `pat in s`. `find_examples.py:49,62,71`. -/
def pyIn (pat : PyText) : PyText → Bool
  | [] => pat.isEmpty
  | c :: s => pat.isPrefixOf (c :: s) || pyIn pat s

/-- The characters that `str.strip()` removes, `find_examples.py:48`. -/
def pySpace (c : Char) : Bool :=
  let n := c.toNat
  (9 ≤ n && n ≤ 13) || (28 ≤ n && n ≤ 32) || n == 133 || n == 160 || n == 5760 || (8192 ≤ n && n ≤ 8202) || n == 8232 ||
    n == 8233 || n == 8239 || n == 8287 || n == 12288

/-- `s.strip()`, `find_examples.py:48`. -/
def pyStrip (s : PyText) : PyText := ((s.dropWhile pySpace).reverse.dropWhile pySpace).reverse

/-- `for line in f`: every line with its line end. `find_examples.py:46`. -/
def pyLines : PyText → List PyText
  | [] => []
  | c :: s =>
    if c = '\n' then [c] :: pyLines s
    else
      match pyLines s with
      | [] => [[c]]
      | l :: ls => (c :: l) :: ls

/-- The examples: `find_examples.py:29-37`. Only the name without `.rs` and the text of the file are kept. -/
def exampleFiles (dir : List DirEntry) : List (PyText × PyText) :=
  (dir.filter fun f => !(".".toList.isPrefixOf f.name) && ".rs".toList.isSuffixOf f.name && f.isFile).map fun f =>
    (f.name.take (f.name.length - 3), f.text)

/-- The check that no two examples have the same name, `find_examples.py:39-41`. -/
def namesDiffer (files : List (PyText × PyText)) : Bool :=
  files.all fun f => (files.filter fun g => g.1 = f.1).length == 1

/-- The command and the options of an example, `find_examples.py:45-57`. -/
def directive (text : PyText) : PyText × Option PyText :=
  match (pyLines text).find? fun l => "//?".toList.isPrefixOf l with
  | none => ("run".toList, none)
  | some l =>
    let line := pyStrip (l.drop 3)
    if pyIn [' '] line then (line.takeWhile (· ≠ ' '), some ((line.dropWhile (· ≠ ' ')).drop 1)) else (line, none)

/-- The features of the command line are added to the options, `find_examples.py:59-66`. `none`: the number of pieces is not
2 (ValueError). -/
def addFeatures (features : List PyText) (options : Option PyText) : Option (Option PyText) :=
  if features.length > 0 then
    let o := options.getD []
    if pyIn "--features".toList o then
      match pySplit "--features \"".toList o with
      | [a, b] => some (some (a ++ "--features \"".toList ++ pyJoin [','] features ++ [','] ++ b))
      | _ => none
    else some (some (o ++ " --features \"".toList ++ pyJoin [','] features ++ "\"".toList))
  else some options

/-- The `echo` in front of a run, `find_examples.py:73-74,77-78`. -/
def echoLine (info : PyText) : PyText :=
  "echo \"\n".toList ++ List.replicate info.length '=' ++ "\n".toList ++ info ++ "\n".toList ++
    List.replicate info.length '=' ++ "\n\"".toList

/-- The lines for one example, `find_examples.py:59-79`. -/
def exampleLines (features : List PyText) (name text : PyText) : Option (List PyText) := do
  let (cmd, options) := directive text
  let options ← addFeatures features options
  let command := "cargo ".toList ++ cmd ++ " --example ".toList ++ name ++ " --release".toList ++
    ((options.map fun o => ' ' :: o).getD [])
  if pyIn "{{NPROCESSES}}".toList command then
    some ([2, 4].flatMap fun n : Nat =>
      [echoLine ("Running ".toList ++ name ++ " on ".toList ++ (toString n).toList ++ " processes".toList),
        pyReplace "{{NPROCESSES}}".toList (toString n).toList command])
  else some [echoLine ("Running ".toList ++ name), command]

/-- All lines, `find_examples.py:43-79`. -/
def scriptLines (features : List PyText) (files : List (PyText × PyText)) : Option (List PyText) :=
  files.foldlM (fun lines f => do return lines ++ (← exampleLines features f.1 f.2)) []

/-- The features of the command line, `find_examples.py:23-25`. -/
def featureList (rawFeatures : Option PyText) : List PyText :=
  match rawFeatures with
  | none => []
  | some r => pySplit [','] r

/-- The lines that are put into `examples.sh`, for the value of `--features` and the directory of the examples,
`find_examples.py:21-79`. -/
def findExamples (rawFeatures : Option PyText) (dir : List DirEntry) : Option (List PyText) :=
  let files := exampleFiles dir
  if namesDiffer files then scriptLines (featureList rawFeatures) files else none

/-- The text of `examples.sh`, `find_examples.py:81-82`. -/
def examplesSh (rawFeatures : Option PyText) (dir : List DirEntry) : Option PyText :=
  (findExamples rawFeatures dir).map (pyJoin " && \\\n".toList)

end Bempp
