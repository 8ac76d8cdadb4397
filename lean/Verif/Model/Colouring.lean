import Verif.Model.FunctionSpace
/-
Model of `cell_colouring`, `src/function.rs:281-351`. The `HashMap` is a partial function.
-/
namespace Bempp

/-- `HashMap<ReferenceCellType, Vec<Vec<usize>>>`. The type of `colouring`, `src/function.rs:281-286`. -/
abbrev Colouring := CellType → Option (List (List Nat))

/-- Update one key. `colouring.get_mut(..)`, `src/function.rs:335-345`. -/
def Colouring.put (m : Colouring) (t : CellType) (v : List (List Nat)) : Colouring :=
  fun t' => if t' = t then some v else m t'

/-- The loop `src/function.rs:287-294`. It stops at the first dimension whose first sub-entity has
DOFs. If that is not 0, 1 or 2 the code panics (`unwrap` of `None`, or `unimplemented!`), so three
rounds are enough. -/
def findEdim (el : ElementDofs) : Nat → Nat → Option Nat
  | 0, _ => none
  | fuel + 1, edim =>
    match el.entityDofs edim 0 with
    | none => none
    | some l => if l.isEmpty then findEdim el fuel (edim + 1) else some edim

/-- The length of `entity_colours`, `src/function.rs:296-311`. -/
def entityColoursLen (g : Grid) (edim : Nat) : Option Nat :=
  if edim = 0 then some (g.entityCount .point)
  else if edim = 1 then some (g.entityCount .interval)
  else if edim = 2 ∧ g.topologyDim = 2 then some ((g.entityTypes 2).map g.entityCount).sum
  else none

/-- The inner loops `src/function.rs:317-334`: the first colour below `ncols` not used at any of the
entities, or `ncols`. -/
def findColour (ec : List (List Nat)) (indices : List Nat) (ncols : Nat) : Nat :=
  ((List.range ncols).find? fun c => !(indices.any fun v => (ec.getD v []).contains c)).getD ncols

/-- Mutable variables of the main loop. `colouring` and `entity_colours`, `src/function.rs:282-311`. -/
structure ColState where
  col : Colouring
  ec : List (List Nat)

/-- `src/function.rs:335-345`: a new colour is opened for all cell types, an old one extended. -/
def putCell (types : List CellType) (m : Colouring) (t : CellType) (idx c : Nat) :
    Option Colouring := do
  let cols ← m t
  if c = cols.length then
    types.foldlM (fun (m : Colouring) ct => do
      let v ← m ct
      some (m.put ct (v ++ [if ct = t then [idx] else []]))) m
  else do
    let l ← cols[c]?
    some (m.put t (cols.set c (l ++ [idx])))

/-- Loop body `src/function.rs:313-349`. An entity number out of range makes the code panic at the
latest in lines 346-348. -/
def colourCell (g : Grid) (edim : Nat) (s : ColState) (cell : Entity) : Option ColState := do
  let indices := cell.sub edim
  let cols ← s.col cell.entityType
  if indices.all (· < s.ec.length) then
    let c := findColour s.ec indices cols.length
    let col ← putCell (g.entityTypes 2) s.col cell.entityType cell.localIndex c
    some
      { col := col
        ec := indices.foldl (fun ec v => ec.set v (ec.getD v [] ++ [c])) s.ec }
  else none

/-- `cell_colouring`, `src/function.rs:281-351`. -/
def FunctionSpace.cellColouring (sp : FunctionSpace) : Option Colouring := do
  let g := sp.grid
  let col0 : Colouring := fun t => if t ∈ g.entityTypes 2 then some [] else none
  let t0 ← (g.entityTypes 2)[0]?
  let el ← sp.element t0
  let edim ← findEdim el 3 0
  let n ← entityColoursLen g edim
  let s ← (g.entityIter 2).foldlM (colourCell g edim) { col := col0, ec := List.replicate n [] }
  some s.col

end Bempp
