import Verif.Model.Grid
import Verif.Model.Parallel
/-
Enumeration and batching of cell pairs: `src/boundary_assemblers.rs:259-297` (local vertex pairs),
`make_cell_blocks` (564-606), `get_pairs_if_smallest` (775-792), `neighbours` (794-821) and the batching
loops of `assemble_nonsingular_part` (468-491).
-/
namespace Bempp

/-- `HashMap::insert`: replaces the value of an existing key.
Used for `src/boundary_assemblers.rs:291` and `src/function.rs:124,285,385-386`. -/
def Map.insert {K V : Type} [DecidableEq K] (m : Map K V) (k : K) (v : V) : Map K V :=
  (k, v) :: m.filter fun e => decide (e.1 ≠ k)

/-- `possible_pairs`, `src/boundary_assemblers.rs:267-288`. -/
def possiblePairs (test trial : CellType) : List (List (Nat × Nat)) :=
  ((List.range (refCount test 0)).flatMap fun i =>
    (List.range (refCount trial 0)).map fun j => [(i, j)]) ++
  ((refEdges test).flatMap fun te => (refEdges trial).flatMap fun re =>
    [[(te.1, re.1), (te.2, re.2)], [(te.2, re.1), (te.1, re.2)]]) ++
  (if test = trial then [(List.range (refCount test 0)).map fun i => (i, i)] else [])

/-- `get_pairs_if_smallest`, `src/boundary_assemblers.rs:775-792`; here `none` is the early
`return None`. -/
def getPairsIfSmallest (test trial : Entity) (vertex : Nat) : Option (List (Nat × Nat)) :=
  (trial.sub 0).zipIdx.foldlM (fun pairs (r : Nat × Nat) =>
    (test.sub 0).zipIdx.foldlM (fun pairs (t : Nat × Nat) =>
      if t.1 = r.1 then
        if t.1 < vertex then none else some (pairs ++ [(t.2, r.2)])
      else some pairs) pairs) []

/-- Body of the loop over trial cells, `src/boundary_assemblers.rs:580-590`. -/
def addTrial (f : CellType → CellType → List (Nat × Nat) → Option Nat) (g : Grid) (vertex : Entity)
    (tc : Nat) (test : Entity) (acc : List (List (Nat × Nat))) (rc : Nat) :
    Option (List (List (Nat × Nat))) := do
  let trial ← g.entity 2 rc
  match getPairsIfSmallest test trial vertex.localIndex with
  | none => some acc
  | some pairs => do
    let i ← f test.entityType trial.entityType pairs
    let l ← acc[i]?
    some (acc.set i (l ++ [(tc, rc)]))

/-- Body of the loop over test cells, `src/boundary_assemblers.rs:576-592`. -/
def addTest (f : CellType → CellType → List (Nat × Nat) → Option Nat) (g : Grid) (vertex : Entity)
    (acc : List (List (Nat × Nat))) (tc : Nat) : Option (List (List (Nat × Nat))) := do
  let test ← g.entity 2 tc
  if test.ownership = .owned then
    (vertex.connected 2).foldlM (addTrial f g vertex tc test) acc
  else some acc

/-- The enumeration of pairs in `make_cell_blocks`, `src/boundary_assemblers.rs:573-593`. -/
def cellPairs (f : CellType → CellType → List (Nat × Nat) → Option Nat) (size : Nat) (g : Grid) :
    Option (List (List (Nat × Nat))) :=
  (g.entityIter 0).foldlM (fun acc vertex => (vertex.connected 2).foldlM (addTest f g vertex) acc)
    (List.replicate size [])

/-- The loop `src/boundary_assemblers.rs:597-602` from position `start`: the terminating runs. -/
inductive Split {α : Type} (b : Nat) (c : List α) : Nat → List (List α) → Prop
  | stop {start : Nat} : ¬ start < c.length → Split b c start []
  | step {start stop : Nat} {rest : List (List α)} : start < c.length →
      stop = min (start + b) c.length → Split b c stop rest →
      Split b c start ((c.drop start).take (stop - start) :: rest)

/-- The loop `src/boundary_assemblers.rs:596-603` over the lists of pairs. -/
inductive SplitAll {α : Type} (b : Nat) : List (List α × Nat) → List (Nat × List α) → Prop
  | nil : SplitAll b [] []
  | cons {c : List α} {i : Nat} {l : List (List α × Nat)} {bs : List (List α)}
      {rest : List (Nat × List α)} : Split b c 0 bs → SplitAll b l rest →
      SplitAll b ((c, i) :: l) (bs.map (fun x => (i, x)) ++ rest)

/-- `make_cell_blocks`, `src/boundary_assemblers.rs:564-606`: the terminating runs, with result `none`
for a panic. -/
def MakeCellBlocks (f : CellType → CellType → List (Nat × Nat) → Option Nat) (size : Nat) (g : Grid)
    (b : Nat) (out : Option (List (Nat × List (Nat × Nat)))) : Prop :=
  match cellPairs f size g with
  | none => out = none
  | some cp => ∃ blocks, SplitAll b cp.zipIdx blocks ∧ out = some blocks

/-- The inner loop `src/boundary_assemblers.rs:480-489` over trial batches. -/
inductive SplitTrial {α : Type} (b : Nat) (c : List α) : Nat → List (List α) → Prop
  | stop {start : Nat} : ¬ start < c.length → SplitTrial b c start []
  | step {start stop : Nat} {rest : List (List α)} : start < c.length →
      stop = (if start + b < c.length then start + b else c.length) → SplitTrial b c stop rest →
      SplitTrial b c start ((c.drop start).take (stop - start) :: rest)

/-- The loops `src/boundary_assemblers.rs:471-491`: the pairs `(test_cells[t], trial_cells[t])`. -/
inductive SplitPairs (b : Nat) (testC trialC : List Nat) : Nat → List (List Nat × List Nat) → Prop
  | stop {start : Nat} : ¬ start < testC.length → SplitPairs b testC trialC start []
  | step {start stop : Nat} {trs : List (List Nat)} {rest : List (List Nat × List Nat)} :
      start < testC.length →
      stop = (if start + b < testC.length then start + b else testC.length) →
      SplitTrial b trialC 0 trs → SplitPairs b testC trialC stop rest →
      SplitPairs b testC trialC start
        (trs.map (fun tr => ((testC.drop start).take (stop - start), tr)) ++ rest)

/-- `equal_grids`, `src/boundary_assemblers/helpers.rs:59-64`. -/
def equalGrids (test trial : Grid) : Bool := test.addr == trial.addr

/-- `neighbours`, `src/boundary_assemblers.rs:794-821`; both cells are looked up in the trial grid. -/
def neighbours (testGrid trialGrid : Grid) (testCell trialCell : Nat) : Option Bool :=
  if equalGrids testGrid trialGrid = false then some false
  else do
    let t ← trialGrid.entity 2 testCell
    let r ← trialGrid.entity 2 trialCell
    some ((r.sub 0).any fun v => (t.sub 0).contains v)

end Bempp
