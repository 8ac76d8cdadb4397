import Verif.Model.FindExamples
/-
What the script that runs all examples should contain. Only `PyText`, `DirEntry` and `pySpace` (the characters that count as
space) are taken from the model.
-/
namespace Bempp

/-- A file that is an example called `name`. -/
def DirEntry.IsExample (f : DirEntry) (name : PyText) : Prop :=
  f.isFile = true ∧ f.name = name ++ ".rs".toList ∧ f.name.head? ≠ some '.'

/-- The text is `a`, `//?` and `b`, and a line starts after `a`. -/
def DirectiveAt (text a b : PyText) : Prop :=
  text = a ++ "//?".toList ++ b ∧ (a = [] ∨ ∃ a', a = a' ++ ['\n'])

/-- `rest` is what follows `//?` in the first line that starts with it. -/
def FirstDirective (text rest : PyText) : Prop :=
  ∃ a tail, DirectiveAt text a (rest ++ tail) ∧ (∀ a' b', DirectiveAt text a' b' → a.length ≤ a'.length) ∧
    '\n' ∉ rest ∧ (tail = [] ∨ ∃ t, tail = '\n' :: t)

/-- `core` is `s` without the spaces at both ends. -/
def Trimmed (s core : PyText) : Prop :=
  ∃ x y, s = x ++ core ++ y ∧ (∀ c ∈ x, pySpace c = true) ∧ (∀ c ∈ y, pySpace c = true) ∧
    (∀ c, core.head? = some c → pySpace c = false) ∧ (∀ c, core.getLast? = some c → pySpace c = false)

/-- What the text of an example asks for: a command and options. -/
inductive Asks (text : PyText) : PyText → Option PyText → Prop
  | nothing : (∀ a b, ¬ DirectiveAt text a b) → Asks text "run".toList none
  | command (rest cmd : PyText) : FirstDirective text rest → Trimmed rest cmd → ' ' ∉ cmd → Asks text cmd none
  | options (rest cmd o : PyText) : FirstDirective text rest → Trimmed rest (cmd ++ ' ' :: o) → ' ' ∉ cmd →
      Asks text cmd (some o)

/-- `pat` is in `s` once, between `a` and `b`. -/
def OnceIn (pat s a b : PyText) : Prop :=
  s = a ++ pat ++ b ∧ ∀ a' b', s = a' ++ pat ++ b' → a' = a ∧ b' = b

/-- The options `o` of an example and the features of the command line together. -/
inductive WithFeatures : Option PyText → Option PyText → Option PyText → Prop
  | none (o : Option PyText) : WithFeatures none o o
  | first (f : PyText) (o : Option PyText) : ¬ "--features".toList <:+: o.getD [] →
      WithFeatures (some f) o (some (o.getD [] ++ " --features \"".toList ++ f ++ ['"']))
  | more (f o a b : PyText) : OnceIn "--features \"".toList o a b →
      WithFeatures (some f) (some o) (some (a ++ "--features \"".toList ++ f ++ [','] ++ b))

/-- The pieces with `sep` between them. -/
def between (sep : PyText) (pieces : List PyText) : PyText := (pieces.intersperse sep).flatten

/-- `s'` is `s` with `new` in the place of `pat`. -/
def Replaced (pat new s s' : PyText) : Prop :=
  ∃ pieces, s = between pat pieces ∧ s' = between new pieces ∧ ∀ p ∈ pieces, ¬ pat <:+: p

/-- A command that prints `info` between two lines of the same length. -/
def Announces (info line : PyText) : Prop :=
  ∃ bar : PyText, bar.length = info.length ∧ (∀ c ∈ bar, c = '=') ∧
    line = "echo \"\n".toList ++ bar ++ ['\n'] ++ info ++ ['\n'] ++ bar ++ "\n\"".toList

/-- How an example is run. -/
def cargoCommand (cmd name : PyText) (o : Option PyText) : PyText :=
  "cargo ".toList ++ cmd ++ " --example ".toList ++ name ++ " --release".toList ++ ((o.map (' ' :: ·)).getD [])

/-- The commands that run the example `name`. -/
inductive RunsExample (cmd name : PyText) (o : Option PyText) : List PyText → Prop
  | once (e : PyText) : ¬ "{{NPROCESSES}}".toList <:+: cargoCommand cmd name o → Announces ("Running ".toList ++ name) e →
      RunsExample cmd name o [e, cargoCommand cmd name o]
  | processes (e c e' c' : PyText) : "{{NPROCESSES}}".toList <:+: cargoCommand cmd name o →
      Announces ("Running ".toList ++ name ++ " on 2 processes".toList) e →
      Replaced "{{NPROCESSES}}".toList ['2'] (cargoCommand cmd name o) c →
      Announces ("Running ".toList ++ name ++ " on 4 processes".toList) e' →
      Replaced "{{NPROCESSES}}".toList ['4'] (cargoCommand cmd name o) c' →
      RunsExample cmd name o [e, c, e', c']

/-- The commands for the example file `f`. -/
def CommandsFor (features : Option PyText) (f : DirEntry) (commands : List PyText) : Prop :=
  ∃ name cmd o o', f.IsExample name ∧ Asks f.text cmd o ∧ WithFeatures features o o' ∧ RunsExample cmd name o' commands

/-- What a shell does with commands that are joined by `&&`: the commands that are executed, and whether all of them succeed. -/
def andList (ok : PyText → Bool) : List PyText → List PyText × Bool
  | [] => ([], true)
  | c :: cs => if ok c then (c :: (andList ok cs).1, (andList ok cs).2) else ([c], false)

end Bempp
