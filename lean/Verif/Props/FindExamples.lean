import Verif.Proofs.FindExamples
import Mathlib.Data.List.Forall2
import Mathlib.Data.List.Nodup
/-
C105: the script that `find_examples.py` writes runs every example, with the command, the options and the features that were
asked for, and stops at the first failure.
-/
namespace Bempp

attribute [local irreducible] String.toList

private theorem featuresQuote : Unbordered "--features \"".toList := by
  unfold Unbordered
  decide +kernel

theorem addFeatures_iff (raw : Option PyText) (o o' : Option PyText) :
    addFeatures (featureList raw) o = some o' ↔ WithFeatures raw o o' := by
  cases raw with
  | none =>
    simp only [addFeatures, featureList, List.length_nil, gt_iff_lt, lt_irrefl, if_false, Option.some.injEq]
    constructor
    · rintro rfl
      exact .none _
    · intro h
      cases h
      rfl
  | some r =>
    have hl : (pySplit [','] r).length > 0 := List.length_pos_iff.mpr (pySplitGo_ne _ _ _)
    have hj : pyJoin [','] (pySplit [','] r) = r := pySplit_join _ (by simp) r
    have hsub : ∀ x : PyText, "--features \"".toList <:+: x → "--features".toList <:+: x := by
      intro x hx
      exact List.IsInfix.trans ⟨[], " \"".toList, by decide +kernel⟩ hx
    simp only [addFeatures, featureList, hl, if_true, hj]
    have hq : "\"".toList = ['"'] := by decide +kernel
    rw [hq]
    constructor
    · intro h
      split at h
      · rename_i hin
        rw [pyIn_iff] at hin
        split at h
        · rename_i a b hs
          rw [pySplit_once (by decide +kernel) featuresQuote] at hs
          cases h
          cases o with
          | none =>
            have := hin.length_le
            simp at this
          | some o => exact .more r o a b hs
        · cases h
      · rename_i hin
        cases h
        rw [pyIn_iff] at hin
        exact .first r o hin
    · intro h
      cases h with
      | first _ _ hin => rw [if_neg (by rw [pyIn_iff]; exact hin)]
      | more _ o a b hs =>
        have hin : "--features".toList <:+: o := hsub o ⟨a, b, hs.1.symm⟩
        rw [if_pos (by rw [pyIn_iff]; exact hin), Option.getD_some, (pySplit_once (by decide +kernel) featuresQuote).mpr hs]

theorem withFeatures_exists (raw o : Option PyText) :
    (∃ o', WithFeatures raw o o') ↔
      raw = none ∨ ¬ "--features".toList <:+: o.getD [] ∨ ∃ a b, OnceIn "--features \"".toList (o.getD []) a b := by
  constructor
  · rintro ⟨o', h⟩
    cases h with
    | none => exact .inl rfl
    | first _ _ h => exact .inr (.inl h)
    | more _ o a b h => exact .inr (.inr ⟨a, b, h⟩)
  · rintro (rfl | h | ⟨a, b, h⟩)
    · exact ⟨o, .none o⟩
    · cases raw with
      | none => exact ⟨o, .none o⟩
      | some r => exact ⟨_, .first r o h⟩
    · cases raw with
      | none => exact ⟨o, .none o⟩
      | some r =>
        cases o with
        | none =>
          have := congrArg List.length h.1
          simp at this
        | some o => exact ⟨_, .more r o a b h⟩

private theorem newline : "\n".toList = ['\n'] := by decide +kernel

theorem echoLine_announces (info : PyText) : Announces info (echoLine info) := by
  refine ⟨List.replicate info.length '=', List.length_replicate, fun c hc => List.eq_of_mem_replicate hc, ?_⟩
  unfold echoLine
  rw [newline]

theorem exampleLines_isSome (raw : Option PyText) (name text cmd : PyText) (o : Option PyText) (ha : Asks text cmd o) :
    (exampleLines (featureList raw) name text).isSome = true ↔ ∃ o', WithFeatures raw o o' := by
  rw [asks_iff] at ha
  have hw := fun o' => addFeatures_iff raw o o'
  rw [exampleLines, ha]
  cases hx : addFeatures (featureList raw) o with
  | none =>
    simp only [hx, reduceCtorEq, false_iff] at hw
    simp [hw, hx]
  | some o' =>
    refine ⟨fun _ => ⟨o', (hw o').mp hx⟩, fun _ => ?_⟩
    simp only [hx, Option.bind_eq_bind, Option.bind_some]
    split <;> rfl

private theorem cargo_eq (cmd name : PyText) (o : Option PyText) :
    "cargo ".toList ++ cmd ++ " --example ".toList ++ name ++ " --release".toList ++
      ((o.map fun o => ' ' :: o).getD []) = cargoCommand cmd name o := by
  cases o <;> rfl

theorem exampleLines_spec (raw : Option PyText) (name text : PyText) (block : List PyText)
    (h : exampleLines (featureList raw) name text = some block) :
    ∃ cmd o o', Asks text cmd o ∧ WithFeatures raw o o' ∧ RunsExample cmd name o' block := by
  obtain ⟨cmd, o, hd⟩ : ∃ cmd o, directive text = (cmd, o) := ⟨_, _, rfl⟩
  refine ⟨cmd, o, ?_⟩
  rw [exampleLines, hd] at h
  simp only [Option.bind_eq_bind, Option.bind_eq_some_iff] at h
  obtain ⟨o', ho', h⟩ := h
  rw [addFeatures_iff] at ho'
  refine ⟨o', (asks_iff _ _ _).mpr hd, ho', ?_⟩
  simp only [cargo_eq] at h
  by_cases hin : pyIn "{{NPROCESSES}}".toList (cargoCommand cmd name o') = true
  · rw [if_pos hin, Option.some.injEq] at h
    subst h
    rw [pyIn_iff] at hin
    have hne : "{{NPROCESSES}}".toList ≠ [] := by decide +kernel
    have h2 : (toString 2).toList = ['2'] := by decide +kernel
    have h4 : (toString 4).toList = ['4'] := by decide +kernel
    refine .processes _ _ _ _ hin ?_ (h2 ▸ pyReplace_spec _ _ _ hne) ?_ (h4 ▸ pyReplace_spec _ _ _ hne)
    · have e : "Running ".toList ++ name ++ " on ".toList ++ (toString 2).toList ++ " processes".toList =
          "Running ".toList ++ name ++ " on 2 processes".toList := by
        have : " on 2 processes".toList = " on ".toList ++ (toString 2).toList ++ " processes".toList := by decide +kernel
        rw [this]
        simp only [List.append_assoc]
      rw [← e]
      exact echoLine_announces _
    · have e : "Running ".toList ++ name ++ " on ".toList ++ (toString 4).toList ++ " processes".toList =
          "Running ".toList ++ name ++ " on 4 processes".toList := by
        have : " on 4 processes".toList = " on ".toList ++ (toString 4).toList ++ " processes".toList := by decide +kernel
        rw [this]
        simp only [List.append_assoc]
      rw [← e]
      exact echoLine_announces _
  · rw [if_neg hin, Option.some.injEq] at h
    subst h
    rw [pyIn_iff] at hin
    exact .once _ hin (echoLine_announces _)

/-! ## The list of examples -/

private theorem forall₂_exists_of_mem_left {α β : Type} {R : α → β → Prop} {l : List α} {l' : List β}
    (h : List.Forall₂ R l l') {x : α} (hx : x ∈ l) : ∃ y ∈ l', R x y := by
  induction h with
  | nil => simp at hx
  | cons hr _ ih =>
    rcases List.mem_cons.mp hx with rfl | hx
    · exact ⟨_, by simp, hr⟩
    · obtain ⟨y, hy, hr⟩ := ih hx
      exact ⟨y, by simp [hy], hr⟩

private theorem forall₂_exists_of_mem_right {α β : Type} {R : α → β → Prop} {l : List α} {l' : List β}
    (h : List.Forall₂ R l l') {y : β} (hy : y ∈ l') : ∃ x ∈ l, R x y := by
  induction h with
  | nil => simp at hy
  | cons hr _ ih =>
    rcases List.mem_cons.mp hy with rfl | hy
    · exact ⟨_, by simp, hr⟩
    · obtain ⟨x, hx, hr⟩ := ih hy
      exact ⟨x, by simp [hx], hr⟩

/-- The files that are taken. -/
private def takes (f : DirEntry) : Bool := !(".".toList.isPrefixOf f.name) && ".rs".toList.isSuffixOf f.name && f.isFile

private theorem takes_iff (f : DirEntry) : takes f = true ↔ f.IsExample (f.name.take (f.name.length - 3)) := by
  have h3 : ".rs".toList.length = 3 := by decide +kernel
  have hdot : ".".toList.isPrefixOf f.name = true ↔ f.name.head? = some '.' := by
    rw [List.isPrefixOf_iff_prefix]
    cases f.name with
    | nil => simp
    | cons c s => simp [eq_comm]
  have hsuf : ".rs".toList.isSuffixOf f.name = true ↔ f.name = f.name.take (f.name.length - 3) ++ ".rs".toList := by
    rw [List.isSuffixOf_iff_suffix, List.suffix_iff_eq_append, h3, eq_comm]
  rw [takes, Bool.and_eq_true, Bool.and_eq_true, hsuf, Bool.not_eq_true', ← Bool.not_eq_true, hdot]
  unfold DirEntry.IsExample
  tauto

private theorem isExample_name {f : DirEntry} {name : PyText} (h : f.IsExample name) :
    name = f.name.take (f.name.length - 3) := by
  rw [h.2.1]
  simp

private theorem exampleFiles_eq (dir : List DirEntry) :
    exampleFiles dir = (dir.filter takes).map fun f => (f.name.take (f.name.length - 3), f.text) := rfl

private theorem namesDiffer_of_nodup (files : List (PyText × PyText)) (h : (files.map Prod.fst).Nodup) :
    namesDiffer files = true := by
  rw [namesDiffer, List.all_eq_true]
  intro f hf
  have h1 : (files.map Prod.fst).count f.1 = 1 := List.count_eq_one_of_mem h (List.mem_map_of_mem hf)
  rw [List.count, List.countP_map, List.countP_eq_length_filter] at h1
  rw [beq_iff_eq, ← h1]
  congr 2
  funext g
  by_cases hg : g.1 = f.1 <;> simp [hg]

private theorem examples_nodup (dir : List DirEntry) (hd : (dir.map DirEntry.name).Nodup) :
    ((exampleFiles dir).map Prod.fst).Nodup := by
  rw [exampleFiles_eq, List.map_map]
  have h1 : ((dir.filter takes).map DirEntry.name).Nodup := hd.sublist (List.filter_sublist.map _)
  rw [List.Nodup, List.pairwise_map] at h1 ⊢
  refine h1.imp_of_mem ?_
  intro f g hf hg hne heq
  have hf := ((takes_iff f).mp (List.mem_filter.mp hf).2).2.1
  have hg := ((takes_iff g).mp (List.mem_filter.mp hg).2).2.1
  simp only [Function.comp] at heq
  exact hne (by rw [hf, hg, heq])

private theorem scriptLines_iff (features : List PyText) (files : List (PyText × PyText)) (lines acc : List PyText) :
    files.foldlM (fun lines f => do return lines ++ (← exampleLines features f.1 f.2)) acc = some lines ↔
      ∃ blocks, List.Forall₂ (fun f b => exampleLines features f.1 f.2 = some b) files blocks ∧ lines = acc ++ blocks.flatten := by
  induction files generalizing acc with
  | nil =>
    simp only [List.foldlM_nil, Option.pure_def, Option.some.injEq, List.forall₂_nil_left_iff, exists_eq_left,
      List.flatten_nil, List.append_nil]
    exact eq_comm
  | cons f files ih =>
    rw [List.foldlM_cons]
    simp only [Option.bind_eq_bind, Option.bind_eq_some_iff, Option.pure_def, Option.some.injEq]
    constructor
    · rintro ⟨_, ⟨b, hb, rfl⟩, h⟩
      obtain ⟨blocks, h1, h2⟩ := (ih _).mp h
      exact ⟨b :: blocks, .cons hb h1, by rw [h2]; simp⟩
    · rintro ⟨blocks, h1, h2⟩
      cases h1 with
      | cons hb h1 => exact ⟨_, ⟨_, hb, rfl⟩, (ih _).mpr ⟨_, h1, by rw [h2]; simp⟩⟩

private theorem findExamples_iff (raw : Option PyText) (dir : List DirEntry) (hd : (dir.map DirEntry.name).Nodup)
    (lines : List PyText) :
    findExamples raw dir = some lines ↔ ∃ blocks, List.Forall₂ (fun f b => exampleLines (featureList raw) f.1 f.2 = some b) (exampleFiles dir) blocks ∧ lines = blocks.flatten := by
  have := scriptLines_iff (featureList raw) (exampleFiles dir) lines []
  simp only [List.nil_append] at this
  rw [findExamples]
  simp only [namesDiffer_of_nodup _ (examples_nodup dir hd), if_true]
  exact this

/-- The commands in the script: those of the example files of the directory, in the order of the directory. -/
theorem C105_script (raw : Option PyText) (dir : List DirEntry) (hd : (dir.map DirEntry.name).Nodup) (lines : List PyText)
    (h : findExamples raw dir = some lines) :
    examplesSh raw dir = some (between " && \\\n".toList lines) ∧
    ∃ files blocks, files.Sublist dir ∧ (∀ f ∈ dir, f ∈ files ↔ ∃ name, f.IsExample name) ∧
      List.Forall₂ (CommandsFor raw) files blocks ∧ lines = blocks.flatten := by
  refine ⟨by rw [examplesSh, h, Option.map_some, pyJoin_between], ?_⟩
  obtain ⟨blocks, h1, h2⟩ := (findExamples_iff raw dir hd lines).mp h
  refine ⟨dir.filter takes, blocks, List.filter_sublist, fun f hf => ?_, ?_, h2⟩
  · rw [List.mem_filter, takes_iff]
    constructor
    · exact fun h => ⟨_, h.2⟩
    · rintro ⟨name, hn⟩
      exact ⟨hf, isExample_name hn ▸ hn⟩
  · rw [exampleFiles_eq, List.forall₂_map_left_iff] at h1
    have hall : ∀ f ∈ dir.filter takes, takes f = true := fun f hf => (List.mem_filter.mp hf).2
    generalize dir.filter takes = files at h1 hall
    clear h2
    induction h1 with
    | nil => exact .nil
    | cons hb _ ih =>
      refine .cons ?_ (ih fun f hf => hall f (by simp [hf]))
      obtain ⟨cmd, o, o', ha, hw, hr⟩ := exampleLines_spec raw _ _ _ hb
      exact ⟨_, cmd, o, o', (takes_iff _).mp (hall _ (by simp)), ha, hw, hr⟩

/-- Every text asks for exactly one command with options. -/
theorem C105_asks (text : PyText) : ∃! p : PyText × Option PyText, Asks text p.1 p.2 :=
  ⟨directive text, (asks_iff _ _ _).mpr rfl, fun _ h => ((asks_iff _ _ _).mp h).symm⟩

/-- When the script is written: if features are given on the command line, then no example has options in which `--features`
appears in another form than once, followed by a space and a quote. -/
theorem C105_written (raw : Option PyText) (dir : List DirEntry) (hd : (dir.map DirEntry.name).Nodup) :
    (examplesSh raw dir).isSome = true ↔
      ∀ f ∈ dir, (∃ name, f.IsExample name) → ∀ cmd o, Asks f.text cmd o →
        raw = none ∨ ¬ "--features".toList <:+: o.getD [] ∨ ∃ a b, OnceIn "--features \"".toList (o.getD []) a b := by
  rw [examplesSh, Option.isSome_map]
  constructor
  · intro h f hf ⟨name, hn⟩ cmd o ha
    obtain ⟨lines, h⟩ := Option.isSome_iff_exists.mp h
    obtain ⟨blocks, h1, h2⟩ := (findExamples_iff raw dir hd lines).mp h
    rw [exampleFiles_eq, List.forall₂_map_left_iff] at h1
    have hmem : f ∈ dir.filter takes := List.mem_filter.mpr ⟨hf, (takes_iff f).mpr (isExample_name hn ▸ hn)⟩
    obtain ⟨b, -, hb⟩ := forall₂_exists_of_mem_left h1 hmem
    rw [← withFeatures_exists]
    exact (exampleLines_isSome raw _ _ _ _ ha).mp (by rw [hb]; rfl)
  · intro h
    have : ∃ blocks, List.Forall₂ (fun f b => exampleLines (featureList raw) f.1 f.2 = some b) (exampleFiles dir) blocks := by
      rw [exampleFiles_eq]
      simp only [List.forall₂_map_left_iff]
      have hall : ∀ f ∈ dir.filter takes, f ∈ dir ∧ takes f = true := fun f hf => List.mem_filter.mp hf
      generalize dir.filter takes = files at hall
      induction files with
      | nil => exact ⟨[], .nil⟩
      | cons f files ih =>
        obtain ⟨blocks, hb⟩ := ih fun g hg => hall g (by simp [hg])
        obtain ⟨h1, h2⟩ := hall f (by simp)
        obtain ⟨⟨cmd, o⟩, ha, -⟩ := C105_asks f.text
        have hs := (exampleLines_isSome raw (f.name.take (f.name.length - 3)) f.text cmd o ha).mpr
          ((withFeatures_exists raw o).mpr (h f h1 ⟨_, (takes_iff f).mp h2⟩ cmd o ha))
        obtain ⟨b, hb'⟩ := Option.isSome_iff_exists.mp hs
        exact ⟨b :: blocks, .cons hb' hb⟩
    obtain ⟨blocks, hb⟩ := this
    rw [Option.isSome_iff_exists]
    exact ⟨_, (findExamples_iff raw dir hd _).mpr ⟨blocks, hb, rfl⟩⟩

private theorem runs_cargo {cmd name : PyText} {o : Option PyText} {commands : List PyText} (h : RunsExample cmd name o commands)
    (c : PyText) (hc : c ∈ commands) (hp : "cargo ".toList <+: c) : ¬ "{{NPROCESSES}}".toList <:+: c := by
  have he : ∀ info e : PyText, Announces info e → ¬ "cargo ".toList <+: e := by
    rintro info e ⟨bar, -, -, rfl⟩ ⟨r, hr⟩
    have := congrArg List.head? hr
    simp at this
  cases h with
  | once e h1 h2 =>
    simp only [List.mem_cons, List.not_mem_nil, or_false] at hc
    rcases hc with rfl | rfl
    · exact absurd hp (he _ _ h2)
    · exact h1
  | processes e c1 e' c2 h1 h2 h3 h4 h5 =>
    simp only [List.mem_cons, List.not_mem_nil, or_false] at hc
    rcases hc with rfl | rfl | rfl | rfl
    · exact absurd hp (he _ _ h2)
    · exact replaced_free (by decide +kernel) (by decide +kernel) h3
    · exact absurd hp (he _ _ h4)
    · exact replaced_free (by decide +kernel) (by decide +kernel) h5

/-- No example is run with the text `{{NPROCESSES}}` instead of a number of processes. -/
theorem C105_processes (raw : Option PyText) (dir : List DirEntry) (hd : (dir.map DirEntry.name).Nodup) (lines : List PyText)
    (h : findExamples raw dir = some lines) (c : PyText) (hc : c ∈ lines) (hp : "cargo ".toList <+: c) :
    ¬ "{{NPROCESSES}}".toList <:+: c := by
  obtain ⟨-, files, blocks, -, -, h1, rfl⟩ := C105_script raw dir hd lines h
  obtain ⟨b, hb, hcb⟩ := List.mem_flatten.mp hc
  obtain ⟨f, -, hf⟩ := forall₂_exists_of_mem_right h1 hb
  obtain ⟨name, cmd, o, o', -, -, -, hr⟩ := hf
  exact runs_cargo hr c hcb hp

theorem andList_ok (ok : PyText → Bool) (cs : List PyText) : (andList ok cs).2 = true ↔ ∀ c ∈ cs, ok c = true := by
  induction cs with
  | nil => simp [andList]
  | cons c cs ih =>
    rw [andList]
    split
    · rename_i h
      simp [ih, h]
    · rename_i h
      simp [h]

theorem andList_all (ok : PyText → Bool) (cs : List PyText) (h : ∀ c ∈ cs, ok c = true) : andList ok cs = (cs, true) := by
  induction cs with
  | nil => rfl
  | cons c cs ih =>
    rw [andList, if_pos (h c (by simp)), ih fun d hd => h d (by simp [hd])]

/-- If the script succeeds, then every example in the directory has been run, with all its commands, and has succeeded. If all
commands succeed, then the script succeeds. -/
theorem C105_success (raw : Option PyText) (dir : List DirEntry) (hd : (dir.map DirEntry.name).Nodup) (lines : List PyText)
    (h : findExamples raw dir = some lines) (ok : PyText → Bool) :
    ((andList ok lines).2 = true ↔ ∀ c ∈ lines, ok c = true) ∧
    ((andList ok lines).2 = true → ∀ f ∈ dir, (∃ name, f.IsExample name) →
      ∃ commands, CommandsFor raw f commands ∧ ∀ c ∈ commands, c ∈ (andList ok lines).1 ∧ ok c = true) := by
  refine ⟨andList_ok ok lines, fun hok f hf hn => ?_⟩
  rw [andList_ok] at hok
  rw [andList_all ok lines hok]
  obtain ⟨-, files, blocks, -, h2, h1, rfl⟩ := C105_script raw dir hd lines h
  obtain ⟨b, hb, hfb⟩ := forall₂_exists_of_mem_left h1 ((h2 f hf).mpr hn)
  refine ⟨b, hfb, fun c hc => ?_⟩
  have : c ∈ blocks.flatten := List.mem_flatten.mpr ⟨b, hb, hc⟩
  exact ⟨this, hok c this⟩

/-- After the first command that fails nothing is executed, and the script fails. -/
theorem C105_failure (ok : PyText → Bool) (before after : List PyText) (c : PyText) (h : ∀ d ∈ before, ok d = true)
    (hc : ok c = false) : andList ok (before ++ c :: after) = (before ++ [c], false) := by
  induction before with
  | nil => simp [andList, hc]
  | cons d before ih =>
    rw [List.cons_append, andList, if_pos (h d (by simp)), ih fun e he => h e (by simp [he])]
    rfl

/-! ## Examples -/

namespace Examples

/-- The two examples of the repository (their texts are shortened), a file that is not an example, and the example of the
comment in `find_examples.py:8`. -/
def exampleDir : List DirEntry :=
  [⟨"assembly.rs".toList, true, "fn main() {\n}\n".toList⟩, ⟨"README.md".toList, true, []⟩,
   ⟨"test_parallel_assembly.rs".toList, true, "fn main() {}\n\n// use mpi\n".toList⟩,
   ⟨"p.rs".toList, true, "// MPI\n//? mpirun -n {{NPROCESSES}} --features \"mpi\"\nfn main() {}\n".toList⟩]

example : (exampleDir.map DirEntry.name).Nodup := by decide +kernel

/-- The commands for it, with features. -/
example : (findExamples (some "a,b".toList) exampleDir).map (fun l => l.filter fun c => "cargo ".toList.isPrefixOf c) = some [
    "cargo run --example assembly --release  --features \"a,b\"".toList,
    "cargo run --example test_parallel_assembly --release  --features \"a,b\"".toList,
    "cargo mpirun --example p --release -n 2 --features \"a,b,mpi\"".toList,
    "cargo mpirun --example p --release -n 4 --features \"a,b,mpi\"".toList] := by
  decide +kernel

example : examplesSh none [⟨"x.rs".toList, true, []⟩] =
    some "echo \"\n=========\nRunning x\n=========\n\" && \\\ncargo run --example x --release".toList := by
  decide +kernel

/-- An example with `--features mpi`, which cargo accepts, or with `--features "mpi"` twice. -/
def unquotedDir : List DirEntry := [⟨"p.rs".toList, true, "//? run --features mpi\n".toList⟩]
def twiceDir : List DirEntry := [⟨"p.rs".toList, true, "//? run --features \"mpi\" --features \"x\"\n".toList⟩]

end Examples

/-- With features on the command line, one example with options that cargo accepts can prevent the whole script from being
written. -/
theorem C105_not_written :
    examplesSh (some "a".toList) Examples.unquotedDir = none ∧ examplesSh (some "a".toList) Examples.twiceDir = none ∧
    (examplesSh none Examples.unquotedDir).isSome = true ∧ (examplesSh none Examples.twiceDir).isSome = true := by
  decide +kernel

end Bempp
