import Verif.Model.FunctionSpace
/-
Programs that create several function spaces one after the other. All messages of all constructions have the default tag
(`src/function.rs:134-224`), so nothing but their order tells the messages of one construction from those of the next.
-/
namespace Bempp

/-- Process `rank` of `size` calls `FunctionSpace::new` (`src/function.rs:106-237`) for each of the given grids and element families
and keeps the spaces. It does not wait for the other processes in between. -/
def createSpaces (rank size : Nat) : List (Grid × (CellType → ElementDofs)) → Prog (List FunctionSpace)
  | [] => .done []
  | j :: js => do
    let s ← FunctionSpace.new rank size j.1 j.2
    let rest ← createSpaces rank size js
    pure (s :: rest)

end Bempp
