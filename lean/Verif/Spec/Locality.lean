import Verif.Spec.Dense
/-
Parts of a surface.
-/
namespace Bempp

variable {R : Type}

/-- `g` is a part of `g'`: entity number `e` of dimension `d` of `g` is entity number `num d e` of `g'`; the cells of `g`
keep their type and the order of their sub-entities. `g'` may have more cells. -/
structure Grid.PartIn (g g' : Grid) (num : Nat → Nat → Nat) : Prop where
  inj : ∀ d, d ≤ 2 → ∀ e e', e < g.count d → e' < g.count d → num d e = num d e' → e = e'
  cell : ∀ c ∈ g.entityIter 2, ∃ c0 ∈ g'.entityIter 2, c0.localIndex = num 2 c.localIndex ∧
    c0.entityType = c.entityType ∧ ∀ d, d ≤ 2 → c0.sub d = (c.sub d).map (num d)

/-- A part of a grid whose cells have no vertex in common with cells outside. -/
structure Grid.ComponentOf (g g' : Grid) (num : Nat → Nat → Nat) : Prop extends g.PartIn g' num where
  closed : ∀ c ∈ g.entityIter 2, ∀ c' ∈ g'.entityIter 2, ∀ v ∈ c.sub 0, num 0 v ∈ c'.sub 0 →
    ∃ d ∈ g.entityIter 2, c'.localIndex = num 2 d.localIndex

/-- The DOFs of a space on a part of a grid are DOFs of the space on the grid: DOF `i` is DOF `p i`. -/
structure PartDofs (sp sp' : FunctionSpace) (num : Nat → Nat) (p : Nat → Nat) : Prop where
  lt : ∀ i, i < sp.globalSize → p i < sp'.globalSize
  inj : ∀ i j, i < sp.globalSize → j < sp.globalSize → p i = p j → i = j
  cell : ∀ c ∈ sp.grid.entityIter 2, ∃ cd, sp.cellDofs c.localIndex = some cd ∧
    sp'.cellDofs (num c.localIndex) = some (cd.map p)

/-- Every cell of the large grid that carries DOF `m` belongs to the part. -/
def InsidePart (sp sp' : FunctionSpace) (num : Nat → Nat) (m : Nat) : Prop :=
  ∀ c' ∈ sp'.grid.entityIter 2, ∀ cd, sp'.cellDofs c'.localIndex = some cd → m ∈ cd →
    ∃ c ∈ sp.grid.entityIter 2, c'.localIndex = num c.localIndex

/-- Two pairs of spaces, the first one on parts of the grids of the second one. Either each pair is on one grid, or on
the parts there are two grid objects; then the parts must not touch each other if they are parts of one grid. -/
structure PartPair (test trial test' trial' : FunctionSpace) (numT numR : Nat → Nat → Nat) : Prop where
  testPart : test.grid.PartIn test'.grid numT
  trialPart : trial.grid.PartIn trial'.grid numR
  same : test.grid.addr = trial.grid.addr → test'.grid.addr = trial'.grid.addr ∧ numT = numR
  apart : test.grid.addr ≠ trial.grid.addr → test'.grid.addr = trial'.grid.addr →
    ∀ c ∈ test.grid.entityIter 2, ∀ c' ∈ trial.grid.entityIter 2, ∀ v ∈ c.sub 0, ∀ v' ∈ c'.sub 0, numT 0 v ≠ numR 0 v'

end Bempp
