import Verif.Spec.PythonRecreate
import Verif.Proofs.Tests
import Verif.Props.Families
/-
C99: the Rust space behind a Python space is made from the grid and the family that the user gave.
-/
namespace Bempp

variable {P : Type} {gridlib lib : Numbering} {topology : RustGrid P → Grid} {elements : RustFamily → CellType → ElementDofs}
  {p : PyGrid P} {g : RustGrid P} {q : PyFamily} {f : RustFamily}

theorem enumValue_ok {α : Type} {values : List α} {number : α → Nat} (hi : ∀ a b, number a = number b → a = b) {a : α} (ha : a ∈ values) :
    enumValue values number (number a) = .ok a := by
  unfold enumValue
  cases h : values.find? fun b => number b = number a with
  | none => exact absurd (List.find?_eq_none.mp h a ha) (by simp)
  | some b =>
    have := List.find?_some h
    rw [hi b a (by simpa using this)]
    rfl

theorem dictGet_ok {α : Type} {values : List α} {m n : α → Nat} (hi : ∀ a b, m a = m b → a = b) {a : α} (ha : a ∈ values) :
    dictGet (values.map fun x => (m x, n x)) (m a) = .ok (n a) := by
  unfold dictGet
  cases h : (values.map fun x => (m x, n x)).reverse.find? fun p => p.1 = m a with
  | none => exact absurd (List.find?_eq_none.mp h (m a, n a) (by simpa using ⟨a, ha, rfl, rfl⟩)) (by simp)
  | some b =>
    have h1 := List.find?_some h
    have h2 := List.mem_of_find?_eq_some h
    simp only [List.mem_reverse, List.mem_map] at h2
    obtain ⟨x, -, rfl⟩ := h2
    rw [hi x a (by simpa using h1)]

instance : LawfulMonad Ffi := LawfulMonad.mk' (m := Ffi)
  (id_map := fun x => by cases x <;> rfl)
  (pure_bind := fun _ _ => rfl)
  (bind_assoc := fun x _ _ => by cases x <;> rfl)

theorem ffi_mapM {α β : Type} {l : List α} {F : α → Ffi β} {G : α → β} (h : ∀ x ∈ l, F x = .ok (G x)) : l.mapM F = .ok (l.map G) := by
  induction l with
  | nil => rfl
  | cons a l ih =>
    rw [List.mapM_cons, h a (by simp), ih fun x hx => h x (by simp [hx])]
    rfl

theorem range_read {α β : Type} {l : List α} {n : Nat} (hn : l.length = n) {F : α → Ffi β} {G : α → β} (h : ∀ x ∈ l, F x = .ok (G x)) :
    ((List.range n).mapM fun i => (do F (← Ffi.mem l[i]?) : Ffi β)) = .ok (l.map G) := by
  subst hn
  cases l with
  | nil => rfl
  | cons a l =>
    rw [ffi_mapM (G := fun i => G ((a :: l).getD i a))]
    · congr 1
      refine List.ext_getElem (by simp) fun i h1 h2 => ?_
      have : i < (a :: l).length := by simpa using h1
      rw [List.getElem_map, List.getElem_map, List.getElem_range, List.getD, List.getElem?_eq_getElem this]
      rfl
    · intro i hi
      have hi : i < (a :: l).length := List.mem_range.mp hi
      rw [List.getElem?_eq_getElem hi]
      show F _ = _
      rw [h _ (List.getElem_mem _)]
      simp [List.getD, List.getElem?_eq_getElem hi]

/-- **C99.** Whatever numbers the two libraries use for cell types and scalar types: Rust gets the grid that Python has. -/
theorem C99_grid (hg : gridlib.Ok) (hl : lib.Ok) (h : p.Shows gridlib g) : recreateGrid gridlib lib p = .ok g := by
  obtain ⟨h1, h2, h3⟩ := h
  have hn : ∀ c : CellType, c ∈ cellNames := by intro c; cases c <;> decide
  have hd : ∀ d : DType, d ∈ dtypeNames := by intro d; cases d <;> decide
  have e1 : ((List.range (g.tdim + 1)).mapM fun i => (do
      dictGet (cellsNdgridToBempp gridlib lib) (← Ffi.mem (g.entityTypes.map gridlib.cell)[i]?) : Ffi Nat)) =
      .ok (g.entityTypes.map lib.cell) := by
    rw [range_read (l := g.entityTypes.map gridlib.cell) (n := g.tdim + 1) (by simpa using h2)
      (G := fun x => (cellNames.find? fun c => gridlib.cell c = x).elim 0 lib.cell)]
    · rw [List.map_map]
      congr 1
      refine List.map_congr_left fun c _ => ?_
      have := enumValue_ok (values := cellNames) hg.cell (hn c)
      unfold enumValue at this
      cases hf : cellNames.find? fun b => gridlib.cell b = gridlib.cell c with
      | none => rw [hf] at this; cases this
      | some b => rw [hf] at this; cases this; simp [hf]
    · intro x hx
      obtain ⟨c, -, rfl⟩ := List.mem_map.mp hx
      have := enumValue_ok (values := cellNames) hg.cell (hn c)
      unfold enumValue at this
      cases hf : cellNames.find? fun b => gridlib.cell b = gridlib.cell c with
      | none => rw [hf] at this; cases this
      | some b =>
        rw [hf] at this
        cases this
        exact dictGet_ok hg.cell (hn _)
  have e2 : uint8Array (g.entityTypes.map lib.cell) = .ok (g.entityTypes.map lib.cell) := by
    unfold uint8Array
    rw [if_pos]
    intro x hx
    obtain ⟨c, -, rfl⟩ := List.mem_map.mp hx
    exact hl.byte c
  have e3 : dictGet (dtypeNdgridToBempp gridlib lib) (gridlib.dtype g.dtype) = .ok (lib.dtype g.dtype) := dictGet_ok hg.dtype (hd _)
  have e4 : ((List.range (g.tdim + 1)).mapM fun i => Ffi.mem (g.entityTypes.map lib.cell)[i]?) = .ok (g.entityTypes.map lib.cell) := by
    have := range_read (l := g.entityTypes.map lib.cell) (n := g.tdim + 1) (by simpa using h2) (F := Ffi.ok) (G := id) fun _ _ => rfl
    rw [List.map_id] at this
    rw [← this]
    congr 1
    funext i
    cases Ffi.mem (g.entityTypes.map lib.cell)[i]? <;> rfl
  have e5 : (g.entityTypes.map lib.cell).mapM (enumValue cellNames lib.cell) = .ok g.entityTypes := by
    have : ∀ l : List CellType, (l.map lib.cell).mapM (enumValue cellNames lib.cell) = .ok l := by
      intro l
      induction l with
      | nil => rfl
      | cons c l ih =>
        rw [List.map_cons, List.mapM_cons, enumValue_ok hl.cell (hn c), ih]
        rfl
    exact this _
  have e6 : enumValue dtypeNames lib.dtype (lib.dtype g.dtype) = .ok g.dtype := enumValue_ok hl.dtype (hd _)
  unfold recreateGrid
  rw [if_pos h1, h3]
  simp only [bind]
  simp only [bind] at e1 e4
  rw [e1]
  simp only [Ffi.bind]
  rw [e2]
  simp only
  rw [e3]
  unfold singleElementGridBorrowedCreateBempp
  simp only [bind]
  rw [e4]
  simp only [Ffi.bind]
  rw [e5]
  simp only
  rw [e6]
  rfl

theorem rtypes_of (h : q.Shows f) : rtypes q.dtype = some f.dtype := by
  obtain ⟨-, -, -, h⟩ := h
  revert h
  cases q.dtype <;> simp [rtypes] <;> intro h <;> exact h.symm

/-- **C99.** Rust gets a Lagrange family with the degree, the continuity and the scalar type of the Python family, whatever numbers the
interface has for them. -/
theorem C99_family (hl : lib.Ok) (h : q.Shows f) : recreateElementFamily lib q = .ok { f with kind := .lagrange } := by
  unfold recreateElementFamily createLagrangeFamilyBempp
  rw [rtypes_of h]
  simp only [bind]
  rw [enumValue_ok hl.continuity (by cases q.continuity <;> decide), Ffi.bind, enumValue_ok hl.dtype (by cases f.dtype <;> decide), h.2.1, h.2.2.1]
  rfl

/-- **C99.** So Rust gets the family that Python has exactly if that is a Lagrange family. -/
theorem C99_family_right_iff (hl : lib.Ok) (h : q.Shows f) : recreateElementFamily lib q = .ok f ↔ f.kind = .lagrange := by
  rw [C99_family hl h]
  constructor
  · intro e
    have e : ({ f with kind := .lagrange } : RustFamily) = f := by injection e
    rw [← e]
  · intro e
    rw [← e]

theorem table_iff {r : DType} {k : FamilyType} {d : DType} (hr : r = .f32 ∨ r = .f64) :
    [RustType.grid true r.real, .family k d] ∈ RustType.functionSpaceTable ↔
      (r = .f32 ∧ (d = .f32 ∨ d = .c32)) ∨ (r = .f64 ∧ (d = .f64 ∨ d = .c64)) := by
  rcases hr with rfl | rfl <;> cases d <;> cases k <;> decide

theorem pyFunctionSpace_eq (hg : gridlib.Ok) (hl : lib.Ok) (h : p.Shows gridlib g) (hf : q.Shows f) :
    pyFunctionSpace gridlib lib topology elements p q =
      (rustFunctionSpace topology elements g { f with kind := .lagrange }).bind fun fs => .ok ⟨fs, f.dtype, p, q⟩ := by
  unfold pyFunctionSpace
  rw [C99_grid hg hl h, C99_family hl hf]
  rfl

theorem rustFunctionSpace_ok (hp : SamePrecision g f) {fs : FunctionSpace} (hn : FunctionSpace.new 0 1 (topology g) (elements f) = .done fs) :
    rustFunctionSpace topology elements g f = .ok fs := by
  have hr : g.dtype = .f32 ∨ g.dtype = .f64 := by rcases hp with h | h <;> simp [h.1]
  unfold rustFunctionSpace concretise
  have hc : ¬ (g.dtype = .c32 ∨ g.dtype = .c64) := by rcases hr with e | e <;> simp [e]
  rw [if_neg hc, if_pos ((table_iff hr).mpr hp), hn]

/-- **C99, partial.** For Lagrange families: the Python space contains the space that Rust makes from this grid and this family, and its
`element` is the element whose DOFs it has. Missing: other families, for which this is false (`C99_other_families`). -/
theorem C99_space_partial (hg : gridlib.Ok) (hl : lib.Ok) (h : p.Shows gridlib g) (hf : q.Shows f) (hk : f.kind = .lagrange)
    (hp : SamePrecision g f) {fs : FunctionSpace} (hn : FunctionSpace.new 0 1 (topology g) (elements f) = .done fs) :
    pyFunctionSpace gridlib lib topology elements p q = .ok ⟨fs, f.dtype, p, q⟩ ∧
      ∀ t, (⟨fs, f.dtype, p, q⟩ : MadeSpace P).element elements t = some (elements f t) := by
  constructor
  · rw [pyFunctionSpace_eq hg hl h hf, ← hk, rustFunctionSpace_ok hp hn]
    rfl
  · intro t
    unfold MadeSpace.element
    rw [rtypes_of hf, Option.map_some, hf.1, hf.2.1, hf.2.2.1]

/-- **C99.** Grids that are not of one element type and scalar types that Rust does not have raise exceptions; different precisions of grid
and family end the process. -/
theorem C99_rejected (hg : gridlib.Ok) (hl : lib.Ok) :
    (p.gridType ≠ gridlib.singleElementGrid → pyFunctionSpace gridlib lib topology elements p q = .raised) ∧
    (∀ n, p.Shows gridlib g → q.dtype = .other n → pyFunctionSpace gridlib lib topology elements p q = .raised) ∧
    (p.Shows gridlib g → q.Shows f → ¬ SamePrecision g f → pyFunctionSpace gridlib lib topology elements p q = .panic) := by
  refine ⟨fun h => ?_, fun n h hq => ?_, fun h hq hp => ?_⟩
  · unfold pyFunctionSpace recreateGrid
    rw [if_neg h]
    rfl
  · unfold pyFunctionSpace
    rw [C99_grid hg hl h]
    show Ffi.bind (recreateElementFamily lib q) _ = _
    unfold recreateElementFamily
    rw [hq]
    rfl
  · rw [pyFunctionSpace_eq hg hl h hq]
    unfold rustFunctionSpace concretise
    split
    · rfl
    · rename_i hc
      have hr : g.dtype = .f32 ∨ g.dtype = .f64 := by
        revert hc
        cases g.dtype <;> simp
      rw [if_neg fun e => hp ((table_iff hr).mp e)]
      rfl

/-- **C99.** The property `dtype` of a space is the scalar type of the family, if that is real. It raises for complex spaces, which can be
made. -/
theorem C99_dtype (s : MadeSpace P) : (s.dtype = .f32 ∨ s.dtype = .f64 → pySpaceDtype s.dtype = .ok s.dtype) ∧
    (s.dtype = .c32 ∨ s.dtype = .c64 → pySpaceDtype s.dtype = .raised) := by
  constructor <;> rintro (h | h) <;> rw [h] <;> rfl

/-- **C99, negation.** For Raviart-Thomas and Nédélec families it is false, on the spheres of all levels and for all degrees: no error
occurs, but the space is that of another family. It has a wrong number of DOFs, it has a DOF on every vertex and its `element` has none there. -/
theorem C99_other_families {T : Type} [Zero T] [One T] [Neg T] [Add T] [Mul T] [Div T] {half : T} {sqrt : T → T} {n : Nat} {s : Shape T}
    {pt cl : Nat → Nat} (hg : gridlib.Ok) (hl : lib.Ok) (h : p.Shows gridlib g) (hf : q.Shows f) (hp : SamePrecision g f)
    (hE : ElementsOk elements) (hs : regularSphere half sqrt n = some s) (hb : Built s .triangle (topology g) pt cl)
    (hk : f.kind = .raviartThomas ∨ f.kind = .nedelec) (hc : f.continuity = .standard) (hd : 0 < f.degree) :
    ∃ fs right : FunctionSpace, pyFunctionSpace gridlib lib topology elements p q = .ok ⟨fs, f.dtype, p, q⟩ ∧
      FunctionSpace.new 0 1 (topology g) (elements f) = .done right ∧
      fs.globalSize = f.degree ^ 2 * 4 ^ (n + 1) + 2 ∧ right.globalSize = f.degree * (2 * f.degree + 1) * 4 ^ (n + 1) ∧
      fs.globalSize ≠ right.globalSize ∧
      (∀ v, v < (topology g).count 0 → ∃ l, fs.getLocalDofNumbers 0 v = some l ∧ l.length = 1) ∧
      ∀ i, i < 3 → ((⟨fs, f.dtype, p, q⟩ : MadeSpace P).element elements .triangle).bind (·.entityDofs 0 i) = some [] := by
  have u := hE { f with kind := .lagrange } (.lagrange f.degree) ⟨rfl, hc, rfl⟩ hd
  obtain ⟨fs, e1, e2⟩ := C96_sphere half sqrt (.lagrange f.degree) hd hs hb u
  obtain ⟨F, hF, hV, hcount, hsize⟩ : ∃ F : StandardFamily, f.IsA F ∧ F.Valid ∧ F.counts .triangle 0 = 0 ∧
      ∃ right, FunctionSpace.new 0 1 (topology g) (elements f) = .done right ∧
        right.globalSize = f.degree * (2 * f.degree + 1) * 4 ^ (n + 1) := by
    rcases hk with hk | hk
    · exact ⟨.raviartThomas f.degree, ⟨hk, hc, rfl⟩, hd, rfl, C96_sphere half sqrt (.raviartThomas f.degree) hd hs hb
        (hE f (.raviartThomas f.degree) ⟨hk, hc, rfl⟩ hd)⟩
    · exact ⟨.nedelec f.degree, ⟨hk, hc, rfl⟩, hd, rfl, C96_sphere half sqrt (.nedelec f.degree) hd hs hb
        (hE f (.nedelec f.degree) ⟨hk, hc, rfl⟩ hd)⟩
  obtain ⟨right, r1, r2⟩ := hsize
  have hy : (FunctionSpace.new 0 1 (topology g) (elements { f with kind := .lagrange })).Yields fs := by rw [e1]; exact .done fs
  refine ⟨fs, right, ?_, r1, e2, r2, ?_, ?_, ?_⟩
  · rw [pyFunctionSpace_eq hg hl h hf, rustFunctionSpace_ok (f := { f with kind := .lagrange }) hp e1]
    rfl
  · have e2 : fs.globalSize = f.degree ^ 2 * 4 ^ (n + 1) + 2 := e2
    rw [e2, r2]
    have h4 : 4 ≤ 4 ^ (n + 1) := by
      rw [pow_succ]
      have : 0 < 4 ^ n := Nat.pow_pos (by omega)
      omega
    have h5 : f.degree ^ 2 * 4 ^ (n + 1) + 2 < f.degree * (2 * f.degree + 1) * 4 ^ (n + 1) := by
      have : f.degree * (2 * f.degree + 1) * 4 ^ (n + 1) = f.degree ^ 2 * 4 ^ (n + 1) + (f.degree ^ 2 + f.degree) * 4 ^ (n + 1) := by ring
      have h6 : 4 ^ (n + 1) ≤ (f.degree ^ 2 + f.degree) * 4 ^ (n + 1) := Nat.le_mul_of_pos_left _ (by omega)
      omega
    omega
  · intro v hv
    obtain ⟨hs', -⟩ : SerialSpace fs (elements { f with kind := .lagrange }) ∧ True := by
      obtain ⟨fs', a1, a2, -⟩ := hb.space u
      rw [e1] at a1
      cases a1
      exact ⟨a2, trivial⟩
    obtain ⟨hl', -⟩ := C55_python_space hs'
    have hgr : fs.grid = topology g := by
      obtain ⟨-, -, -, -, -, hgr, -⟩ := new_local hy
      exact hgr
    rw [hgr] at hl'
    obtain ⟨l, l1, -⟩ := hl' 0 v (by omega) hv
    exact ⟨l, l1, Tests.length_of hb u hy (by omega) hv l1⟩
  · intro i hi
    unfold MadeSpace.element
    rw [rtypes_of hf, Option.map_some, Option.bind_some, hf.1, hf.2.1, hf.2.2.1]
    have w := hE f F hF hV
    obtain ⟨l, hl'⟩ := Option.isSome_iff_exists.mp (w.wf.defined 0 (by omega) i hi)
    have := w.count 0 (by omega) i hi l hl'
    rw [hcount] at this
    show (elements f .triangle).entityDofs 0 i = _
    rw [hl', List.length_eq_zero_iff.mp this]

section Example

/-- Different numbers in the two libraries. -/
def exampleLib : Numbering :=
  { cell := fun | .point => 0 | .interval => 1 | .triangle => 2 | .quadrilateral => 3 | .tetrahedron => 4 | .hexahedron => 5 | .prism => 6 | .pyramid => 7
    dtype := fun | .f32 => 0 | .f64 => 1 | .c32 => 2 | .c64 => 3
    continuity := fun | .standard => 0 | .discontinuous => 1
    singleElementGrid := 0 }

def exampleGridlib : Numbering :=
  { exampleLib with cell := fun t => 7 - exampleLib.cell t, dtype := fun d => 3 - exampleLib.dtype d, singleElementGrid := 5 }

theorem exampleLib_ok : exampleLib.Ok :=
  ⟨by intro c c'; cases c <;> cases c' <;> decide, by intro c; cases c <;> decide, by intro c c'; cases c <;> cases c' <;> decide,
    by intro c c'; cases c <;> cases c' <;> decide⟩

theorem exampleGridlib_ok : exampleGridlib.Ok :=
  ⟨by intro c c'; cases c <;> cases c' <;> decide, by intro c; cases c <;> decide, by intro c c'; cases c <;> cases c' <;> decide,
    by intro c c'; cases c <;> cases c' <;> decide⟩

/-- The data of a grid of triangles whose points are of type `d`. -/
def exampleGrid (d : DType) : RustGrid Nat :=
  ⟨2, 10, 11, [.point, .interval, .triangle], 12, 13, 14, 15, 16, 17, 3, 6, d, 18, 3, 8, 1⟩

def examplePyGrid (d : DType) : PyGrid Nat :=
  ⟨5, ⟨2, 10, 11, [7, 6, 5], 12, 13, 14, 15, 16, 17, 3, 6, exampleGridlib.dtype d, 18, 3, 8, 1⟩⟩

theorem examplePyGrid_shows (d : DType) : (examplePyGrid d).Shows exampleGridlib (exampleGrid d) := ⟨rfl, rfl, rfl⟩

/-- Elements as they should be. -/
def exampleElements (f : RustFamily) (t : CellType) : ElementDofs :=
  match f.kind, f.continuity with
  | .lagrange, .standard => layeredElement ((StandardFamily.lagrange f.degree).counts t) t
  | .lagrange, .discontinuous => layeredElement ((StandardFamily.discontinuous f.degree).counts t) t
  | .raviartThomas, _ => layeredElement ((StandardFamily.raviartThomas f.degree).counts t) t
  | .nedelec, _ => layeredElement ((StandardFamily.nedelec f.degree).counts t) t

theorem exampleElements_ok : ElementsOk exampleElements := by
  intro f F h hF
  obtain ⟨k, d, c, t⟩ := f
  cases F <;> obtain ⟨rfl, rfl, rfl⟩ := h <;> exact (C96_elements _ hF .triangle (.inl rfl)).1

/-- Cell types and scalar types are translated: 7 becomes 0, 2 becomes 1. -/
example : recreateGrid exampleGridlib exampleLib (examplePyGrid .f64) = .ok (exampleGrid .f64) :=
  C99_grid exampleGridlib_ok exampleLib_ok (examplePyGrid_shows .f64)

/-- Discontinuous functions of degree 2 in complex arithmetic. -/
example : recreateElementFamily exampleLib ⟨.lagrange, 2, .discontinuous, .complex128⟩ = .ok ⟨.lagrange, 2, .discontinuous, .c64⟩ :=
  (C99_family_right_iff exampleLib_ok ⟨rfl, rfl, rfl, rfl⟩).mpr rfl

/-- All levels of the sphere and all degrees: a Lagrange family gives the right space, a Raviart-Thomas family the space of the former. -/
example (n d : Nat) (hd : 0 < d) : ∃ (grid : Grid) (fs right : FunctionSpace),
    pyFunctionSpace exampleGridlib exampleLib (fun _ => grid) exampleElements (examplePyGrid .f64) ⟨.lagrange, d, .standard, .float64⟩ =
      .ok ⟨fs, .f64, examplePyGrid .f64, ⟨.lagrange, d, .standard, .float64⟩⟩ ∧
    pyFunctionSpace exampleGridlib exampleLib (fun _ => grid) exampleElements (examplePyGrid .f64) ⟨.raviartThomas, d, .standard, .float64⟩ =
      .ok ⟨fs, .f64, examplePyGrid .f64, ⟨.raviartThomas, d, .standard, .float64⟩⟩ ∧
    FunctionSpace.new 0 1 grid (exampleElements ⟨.raviartThomas, d, .standard, .f64⟩) = .done right ∧ fs.globalSize ≠ right.globalSize := by
  obtain ⟨s, hs, -⟩ := C30_sizes (1 : Int) id n
  obtain ⟨-, -, -, ⟨g, pt, cl, hb⟩, -⟩ := C47_conforming (1 : Int) id (fun k => (k : Int)) (.inl ⟨hs, rfl⟩)
  obtain ⟨fs, right, h1, h2, h3, -, h4, -⟩ := C99_other_families (topology := fun _ => g) (q := ⟨.raviartThomas, d, .standard, .float64⟩)
    (f := ⟨.raviartThomas, d, .standard, .f64⟩) exampleGridlib_ok exampleLib_ok (examplePyGrid_shows .f64) ⟨rfl, rfl, rfl, rfl⟩
    (.inr ⟨rfl, .inl rfl⟩) exampleElements_ok hs hb (.inl rfl) rfl hd
  obtain ⟨fs', e1, -⟩ := C96_sphere _ _ (.lagrange d) hd hs hb (exampleElements_ok ⟨.lagrange, d, .standard, .f64⟩ (.lagrange d) ⟨rfl, rfl, rfl⟩ hd)
  obtain ⟨h5, -⟩ := C99_space_partial (topology := fun _ => g) (q := ⟨.lagrange, d, .standard, .float64⟩)
    (f := ⟨.lagrange, d, .standard, .f64⟩) exampleGridlib_ok exampleLib_ok (examplePyGrid_shows .f64) ⟨rfl, rfl, rfl, rfl⟩ rfl
    (.inr ⟨rfl, .inl rfl⟩) e1
  have h6 := pyFunctionSpace_eq (topology := fun _ => g) (elements := exampleElements) (q := ⟨.raviartThomas, d, .standard, .float64⟩)
    (f := ⟨.raviartThomas, d, .standard, .f64⟩) exampleGridlib_ok exampleLib_ok (examplePyGrid_shows .f64) ⟨rfl, rfl, rfl, rfl⟩
  rw [rustFunctionSpace_ok (f := ⟨.lagrange, d, .standard, .f64⟩) (.inr ⟨rfl, .inl rfl⟩) e1, h1] at h6
  have : fs = fs' := by injection h6 with h6; injection h6
  subst this
  exact ⟨g, fs, right, h5, h1, h2, h4⟩

/-- A grid of single precision and a family of double precision: the process ends. -/
example : pyFunctionSpace exampleGridlib exampleLib (fun _ => Examples.octahedron) exampleElements (examplePyGrid .f32)
    ⟨.lagrange, 1, .standard, .float64⟩ = .panic :=
  (C99_rejected (f := ⟨.lagrange, 1, .standard, .f64⟩) exampleGridlib_ok exampleLib_ok).2.2 (examplePyGrid_shows .f32) ⟨rfl, rfl, rfl, rfl⟩
    (by rintro (⟨-, h | h⟩ | ⟨h, -⟩) <;> cases h)

end Example
end Bempp
