import Verif.Model.AssignDofs
import Verif.Model.Mpi
/-
Model of `FunctionSpace` (`src/function.rs:73-88`), `FunctionSpace::new` (106-237) and the accessors of
`FunctionSpaceTrait` (251-280, 352-361).
-/
namespace Bempp

/-- `FunctionSpace`, `src/function.rs:73-88`; `commSize` is `grid.comm().size()`. -/
structure FunctionSpace where
  grid : Grid
  commSize : Nat
  elements : Map CellType ElementDofs
  entityDofs : List (List (List Nat))
  cellDofsVec : List (List Nat)
  localSize : Nat
  globalSize : Nat
  globalDofNumbers : List Nat
  ownershipVec : List Ownership

namespace FunctionSpace

/-- `element`, `src/function.rs:254-256` (`none`: panic on a missing key). -/
def element (s : FunctionSpace) (t : CellType) : Option ElementDofs := s.elements.get? t

/-- `get_local_dof_numbers`, `src/function.rs:258-260` (`none`: index panic). -/
def getLocalDofNumbers (s : FunctionSpace) (d e : Nat) : Option (List Nat) :=
  s.entityDofs[d]?.bind (·[e]?)

/-- `is_serial`, `src/function.rs:261-263`. -/
def isSerial (s : FunctionSpace) : Bool := s.commSize == 1

/-- `cell_dofs`, `src/function.rs:274-280`: checked access, `None` for a number that is not a cell. -/
def cellDofs (s : FunctionSpace) (c : Nat) : Option (List Nat) :=
  if c < s.cellDofsVec.length then s.cellDofsVec[c]? else none

/-- `cell_dofs_unchecked`, `src/function.rs:271-273`; `none` stands for the undefined behaviour of an
out-of-bounds `get_unchecked`. -/
def cellDofsUnchecked (s : FunctionSpace) (c : Nat) : Option (List Nat) := s.cellDofsVec[c]?

/-- `global_dof_index`, `src/function.rs:352-354` (`none`: index panic). -/
def globalDofIndex (s : FunctionSpace) (i : Nat) : Option Nat := s.globalDofNumbers[i]?

/-- `ownership`, `src/function.rs:355-357` (`none`: index panic). -/
def ownership (s : FunctionSpace) (i : Nat) : Option Ownership := s.ownershipVec[i]?

/-- State of the numbering loop `src/function.rs:128-151`. The four parallel lists
`ghost_indices/ghost_dims/ghost_entities/ghost_entity_dofs` of process `p` are pushed to together and
are modelled as one list of quadruples (index, dim, entity, position). -/
structure NumState where
  globalDofNumbers : List Nat
  dofN : Nat
  ghosts : List (List (Nat × Nat × Nat × Nat))

/-- Loop body `src/function.rs:142-150`. -/
def numStep (rank : Nat) (st : NumState) (x : (Nat × Nat × Nat × Nat) × Nat) : Option NumState :=
  let own := x.1
  let i := x.2
  if own.1 = rank then
    if i < st.globalDofNumbers.length then
      some { st with
        globalDofNumbers := st.globalDofNumbers.set i st.dofN
        dofN := st.dofN + 1 }
    else none
  else do
    let l ← st.ghosts[own.1]?
    some { st with ghosts := st.ghosts.set own.1 (l ++ [(i, own.2.1, own.2.2.1, own.2.2.2)]) }

/-- The numbering loop `src/function.rs:128-151` for a given offset. -/
def numberOwned (rank size dofmapSize : Nat) (ownerData : List (Nat × Nat × Nat × Nat))
    (offset : Nat) : Option NumState :=
  ownerData.zipIdx.foldlM (numStep rank)
    { globalDofNumbers := List.replicate dofmapSize 0
      dofN := offset
      ghosts := List.replicate size [] }

/-- `src/function.rs:193-197`: look up the requested DOFs (`zip` stops at the shortest list, indexing
panics). -/
def answerLocal (entityDofs : List (List (List Nat))) (gd ge gk : List Nat) : Option (List Nat) :=
  (gd.zip (ge.zip gk)).mapM fun x => do
    let a ← entityDofs[x.1]?
    let b ← a[x.2.1]?
    b[x.2.2]?

/-- `src/function.rs:198-201`. -/
def answerGlobal (globalDofNumbers : List Nat) (l : List Nat) : Option (List Nat) :=
  l.mapM fun i => globalDofNumbers[i]?

/-- Loop body `src/function.rs:216-222`. -/
def ghostStep (p : Nat) (st : List Nat × List Ownership)
    (x : (Nat × Nat × Nat × Nat) × (Nat × Nat)) : Option (List Nat × List Ownership) :=
  if x.1.1 < st.1.length ∧ x.1.1 < st.2.length then
    some (st.1.set x.1.1 x.2.2, st.2.set x.1.1 (.ghost p x.2.1))
  else none

/-- The other processes in increasing order (`for p in 0..size { if p != rank ..`).
Loops at `src/function.rs:173-174,187-188,211-212`. -/
def others (rank size : Nat) : List Nat := (List.range size).filter (· ≠ rank)

/-- `src/function.rs:134-139`: the offset is received from the previous process. -/
def recvOffset (rank : Nat) : Prog Nat :=
  if rank = 0 then .done 0 else Prog.recvOne (rank - 1)

/-- `src/function.rs:152-157`: pass the next free number on. -/
def sendOffset (rank size dofN : Nat) : Prog Unit :=
  if rank + 1 < size then Prog.sendTo (rank + 1) [dofN] else .done ()

/-- `src/function.rs:159-169`: the last process tells everybody the total. -/
def exchangeSize (rank size dofN : Nat) : Prog Nat :=
  if rank + 1 = size then
    ((List.range rank).forM fun p => Prog.sendTo p [dofN]) >>= fun _ => .done dofN
  else Prog.recvOne (size - 1)

/-- `src/function.rs:173-185`: send the three request lists to every other process. -/
def sendRequests (rank size : Nat) (st : NumState) : Prog Unit :=
  (others rank size).forM fun p => do
    let gh ← Prog.lift st.ghosts[p]?
    Prog.sendTo p (gh.map fun x => x.2.1)
    Prog.sendTo p (gh.map fun x => x.2.2.1)
    Prog.sendTo p (gh.map fun x => x.2.2.2)

/-- `src/function.rs:187-207`: answer the requests of every other process. -/
def answerRequests (rank size : Nat) (dm : DofState) (st : NumState) : Prog Unit :=
  (others rank size).forM fun p => do
    let gd ← Prog.recvVec p
    let ge ← Prog.recvVec p
    let gk ← Prog.recvVec p
    let loc ← Prog.lift (answerLocal dm.entityDofs gd ge gk)
    let glo ← Prog.lift (answerGlobal st.globalDofNumbers loc)
    Prog.sendTo p loc
    Prog.sendTo p glo

/-- `src/function.rs:210-224`: store the answers. -/
def receiveGhosts (rank size : Nat) (dm : DofState) (st : NumState) :
    Prog (List Nat × List Ownership) :=
  (others rank size).foldlM (fun acc p => do
      let loc ← Prog.recvVec p
      let glo ← Prog.recvVec p
      let gh ← Prog.lift st.ghosts[p]?
      Prog.lift ((gh.zip (loc.zip glo)).foldlM (ghostStep p) acc))
    (st.globalDofNumbers, List.replicate dm.size Ownership.owned)

/-- `FunctionSpace::new`, `src/function.rs:106-237`, as the program of process `rank` of `size`.
`grid.local_grid()` and `grid` are the same `Grid` (ndgrid's parallel grid delegates to its local
grid). -/
def new (rank size : Nat) (g : Grid) (fam : CellType → ElementDofs) : Prog FunctionSpace := do
  -- 119-120
  let dm ← Prog.lift (assignDofs rank g fam)
  let offset ← recvOffset rank
  -- 128-151
  let st ← Prog.lift (numberOwned rank size dm.size dm.ownerData offset)
  sendOffset rank size st.dofN
  let globalSize ← exchangeSize rank size st.dofN
  sendRequests rank size st
  answerRequests rank size dm st
  let fin ← receiveGhosts rank size dm st
  -- 122-125, 226-236
  pure
    { grid := g
      commSize := size
      elements := (g.entityTypes g.topologyDim).map fun t => (t, fam t)
      entityDofs := dm.entityDofs
      cellDofsVec := dm.cellDofs
      localSize := dm.size
      globalSize := globalSize
      globalDofNumbers := fin.1
      ownershipVec := fin.2 }

end FunctionSpace
end Bempp
