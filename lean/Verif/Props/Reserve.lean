import Verif.Model.Reserve
import Verif.Props.Pairs
import Verif.Props.Sphere
/-
C91: memory that is reserved in advance.
-/
namespace Bempp

section
variable {T : Type} [Zero T] [One T] [Neg T] [Add T] [Mul T] [Div T]

theorem sphereRounds_eq (half : T) (sqrt : T → T) (n : Nat) :
    ∃ s, (List.range n).foldlM (fun s _ => refineLevel half sqrt s) (octahedronStart (T := T)) = some s ∧
      SphereInv n s ∧
      sphereRounds half sqrt n = some (s, (List.range n).map fun l => ⟨8 * 6 ^ l, 8 * 4 ^ (l + 1)⟩) := by
  induction n with
  | zero => exact ⟨_, rfl, ⟨rfl, rfl, octahedron_good⟩, rfl⟩
  | succ n ih =>
    obtain ⟨s, e, h, hr⟩ := ih
    obtain ⟨s', e', h'⟩ := refineLevel_inv (half := half) (sqrt := sqrt) h
    refine ⟨s', ?_, h', ?_⟩
    · rw [List.range_succ, List.foldlM_append, e]
      simpa using e'
    · unfold sphereRounds at hr ⊢
      rw [List.range_succ, List.foldlM_append, hr]
      simp [e', h'.cells]

/-- **C91**, spheres: `regular_sphere` reserves memory for exactly the points that it makes. Round `l` of the refinement
makes `8 * 4 ^ (l + 1)` cells, but reserves memory for `8 * 6 ^ l`. -/
theorem C91_sphere_partial (half : T) (sqrt : T → T) (level : Nat) : ∃ s points cells,
    regularSphere half sqrt level = some s ∧ regularSphereReserves half sqrt level = some (points, cells) ∧
    points.reserved = s.points.length ∧ points.used = s.points.length ∧
    cells = (List.range level).map fun l => ⟨8 * 6 ^ l, 8 * 4 ^ (l + 1)⟩ := by
  obtain ⟨s, e, h, hr⟩ := sphereRounds_eq half sqrt level
  refine ⟨s.shape, _, _, regularSphere_eq e, by unfold regularSphereReserves; rw [hr]; rfl, ?_, ?_, rfl⟩
  · have := h.good.euler
    rw [s.shape_points, h.length]
    rw [h.cells] at this
    rw [pow_succ]
    dsimp only
    omega
  · rw [s.shape_points]

/-- `6 ^ l` against `4 ^ (l + 1)`. -/
theorem six_four (l : Nat) : (6 ^ l < 4 ^ (l + 1) ↔ l ≤ 3) ∧ (4 ^ (l + 1) < 6 ^ l ↔ 4 ≤ l) := by
  by_cases h : l ≤ 3
  · have : l = 0 ∨ l = 1 ∨ l = 2 ∨ l = 3 := by omega
    rcases this with rfl | rfl | rfl | rfl <;> decide
  · obtain ⟨k, rfl⟩ : ∃ k, l = 4 + k := ⟨l - 4, by omega⟩
    have h1 : 4 ^ k ≤ 6 ^ k := Nat.pow_le_pow_left (by omega) k
    have h2 : 4 ^ (4 + k + 1) = 1024 * 4 ^ k := by rw [show 4 + k + 1 = 5 + k by omega, pow_add]; norm_num
    have h3 : 6 ^ (4 + k) = 1296 * 6 ^ k := by rw [pow_add]; norm_num
    have h4 : 0 < 4 ^ k := Nat.pow_pos (by omega)
    omega

/-- **C91**, cells of the spheres: the reserved memory is too small up to level 4 (the vector has to grow while it is
filled) and in the last round of every higher level it is too large; it is never right. -/
theorem C91_never_right (half : T) (sqrt : T → T) (level : Nat) {points : Reservation} {cells : List Reservation}
    (h : regularSphereReserves half sqrt level = some (points, cells)) (l : Nat) (r : Reservation)
    (hr : cells[l]? = some r) : (r.reserved < r.used ↔ l ≤ 3) ∧ (r.used < r.reserved ↔ 4 ≤ l) := by
  obtain ⟨s, p, c, -, h2, -, -, h5⟩ := C91_sphere_partial half sqrt level
  rw [h] at h2
  cases h2
  subst h5
  rw [List.getElem?_map] at hr
  obtain ⟨l', hl, rfl⟩ := Option.map_eq_some_iff.mp hr
  have hl : l' = l := by
    rw [List.getElem?_range] at hl
    · exact (Option.some_inj.mp hl).symm
    · by_contra hc
      rw [List.getElem?_eq_none (by simpa using hc)] at hl
      cases hl
  subst hl
  have := six_four l'
  dsimp only
  omega

/-- **C91**, memory for the spheres is not bounded by a multiple of the memory for the result: for every factor `k` there
is a level for which `regular_sphere` reserves memory for more than `k` times the cells of the grid. -/
theorem C91_waste (half : T) (sqrt : T → T) (k : Nat) : ∃ level s points cells,
    regularSphere half sqrt level = some s ∧ regularSphereReserves half sqrt level = some (points, cells) ∧
    ∃ r ∈ cells, k * s.cells.length < r.reserved := by
  have hk : ∃ n, 4 * k * 4 ^ n < 6 ^ n := by
    refine ⟨2 * (4 * k), ?_⟩
    have h1 : ∀ m : Nat, m * 16 ^ m < 36 ^ m := by
      intro m
      induction m with
      | zero => decide
      | succ m ih =>
        have : (m + 1) * 16 ^ (m + 1) = 16 * (m * 16 ^ m) + 16 * 16 ^ m := by ring
        have h2 : 16 ^ m ≤ 36 ^ m := Nat.pow_le_pow_left (by omega) m
        rw [this, pow_succ]
        omega
    rw [pow_mul 4 2, pow_mul 6 2]
    exact h1 _
  obtain ⟨n, hn⟩ := hk
  obtain ⟨s, p, c, h1, h2, -, -, h5⟩ := C91_sphere_partial half sqrt (n + 1)
  refine ⟨n + 1, s, p, c, h1, h2, ⟨8 * 6 ^ n, 8 * 4 ^ (n + 1)⟩, ?_, ?_⟩
  · rw [h5]
    exact List.mem_map.mpr ⟨n, by simp, rfl⟩
  · obtain ⟨s', e1, -, e2, -⟩ := C30_sizes half sqrt (n + 1)
    rw [h1] at e1
    cases e1
    rw [e2]
    dsimp only
    have : k * (8 * 4 ^ (n + 1)) = 8 * (4 * k * 4 ^ n) := by ring
    omega

end

section
variable {R T : Type} [Zero R] [Mul R] [Zero T] [Add T] [Mul T] {env : Env R T} {asm : Assembler R T}
  {trial test : Space R T} {famT famR : CellType → ElementDofs} {F : MathIntegrand T} {K : MathKernel R T}
  {G : Geometry R} {BT BR : Basis R T} {Q : Quadrature R}

/-- **C91**, sparse assembly: every batch of pairs of adjacent cells reserves memory for exactly the triplets that it
stores. -/
theorem C91_batches_partial (h : SingularSetting env asm trial test famT famR F K G BT BR Q) (hb : 0 < asm.options.batchSize) :
    ∃ tb bl, singTables env asm trial test = some tb ∧
    (∀ out, MakeCellBlocks (fun tt rt pairs => tb.pairIndices.get? (tt, rt, pairs)) tb.pairIndices.length
      test.fs.grid asm.options.batchSize out ↔ out = some bl) ∧
    ∀ batch ∈ bl, ∃ rule sp n, tb.rules[batch.1]? = some rule ∧
      assembleBatchSingular env asm (test.fs.globalSize, trial.fs.globalSize) trial test batch.2 rule = some sp ∧
      batchCapacity trial test batch.2 rule = some n ∧
      sp.rows.length = n ∧ sp.cols.length = n ∧ sp.data.length = n := by
  have wf := h.testSpace.wf
  obtain ⟨ev, ed, co⟩ := h.conforming
  have hn := h.keys_nodup
  have hcp := cellPairs_eq wf h.vertices ed co hn
    (f := fun k => Map.get? (allKeys test.fs.grid).zipIdx.reverse k) (lookup_keys hn)
    (fun k h1 h2 h3 => mem_allKeys.mpr ⟨h1, h2, h3⟩)
  obtain ⟨bl, hbl⟩ := SplitAll.exists hb (buckets (allKeys test.fs.grid) (foundPairs test.fs.grid)).zipIdx
  refine ⟨_, bl, h.tables, ?_, ?_⟩
  · intro out
    unfold MakeCellBlocks
    simp only [List.length_reverse, List.length_zipIdx]
    rw [hcp]
    constructor
    · rintro ⟨bl', h1, rfl⟩
      rw [h1.unique hbl]
    · rintro rfl
      exact ⟨bl, hbl, rfl⟩
  · intro batch hm
    obtain ⟨⟨y, i⟩, hy, e, hsub⟩ := hbl.mem batch hm
    simp only at e hsub
    subst e
    have hy := List.mk_mem_zipIdx_iff_getElem?.mp hy
    unfold buckets at hy
    rw [List.getElem?_map] at hy
    cases hki : (allKeys test.fs.grid)[batch.1]? with
    | none => rw [hki] at hy; cases hy
    | some k =>
      rw [hki] at hy
      simp only [Option.map_some, Option.some.injEq] at hy
      have hk := List.mem_of_getElem? hki
      obtain ⟨htt, hrt, -⟩ := mem_allKeys.mp hk
      have hrg : k.2.1 ∈ trial.fs.grid.entityTypes 2 := by rw [h.sameGrid]; exact hrt
      have hcells : ∀ p ∈ batch.2, test.fs.grid.IsCell k.1 p.1 ∧ test.fs.grid.IsCell k.2.1 p.2 := by
        intro p hp
        have := hsub p hp
        rw [← hy] at this
        obtain ⟨x, hx, rfl⟩ := List.mem_map.mp this
        obtain ⟨hx1, hx2⟩ := List.mem_filter.mp hx
        simp only [decide_eq_true_eq] at hx2
        rw [← hx2]
        rw [(foundPairs_perm wf h.vertices).mem_iff] at hx1
        obtain ⟨q, hq, rfl⟩ := List.mem_map.mp hx1
        obtain ⟨h1, h2, _⟩ := mem_adjacentPairs.mp hq
        exact ⟨⟨_, h1, rfl, rfl⟩, _, h2, rfl, rfl⟩
      have hlen : (batch.2.flatMap (pairTriplets env.cast F K G BT BR Q famT famR trial.fs test.fs k)).length =
          batch.2.length * (famR k.2.1).dim * (famT k.1).dim := by
        rw [List.length_flatMap, List.map_congr_left (g := fun _ => (famR k.2.1).dim * (famT k.1).dim)]
        · simp [Nat.mul_assoc]
        · intro p hp
          obtain ⟨⟨c, hc, hci, hct⟩, c', hc', hci', hct'⟩ := hcells p hp
          obtain ⟨td, t1, t2, t4, -, -⟩ := h.testSpace.cell hc
          obtain ⟨rd, r1, r2, r4, -, -⟩ := h.trialSpace.cell (c := c') (by rw [h.sameGrid]; exact hc')
          rw [hci] at t2
          rw [hci'] at r2
          have e1 : (test.fs.dofs p.1).length = (famT k.1).dim := by rw [t2, t4, hct]
          have e2 : (trial.fs.dofs p.2).length = (famR k.2.1).dim := by rw [r2, r4, hct']
          unfold pairTriplets localTriplets
          rw [List.length_flatMap, List.map_congr_left (g := fun _ => (famT k.1).dim)]
          · simp [e2]
          · intro x hx
            obtain ⟨b, -, hb⟩ := List.mem_map.mp (List.of_mem_zip hx).2
            simp [← hb, e1]
      refine ⟨_, _, batch.2.length * (famR k.2.1).dim * (famT k.1).dim, by rw [List.getElem?_map, hki]; rfl,
        h.batch _ hk hcells, ?_, ?_, ?_, ?_⟩
      · unfold batchCapacity
        simp only [singRuleOf, h.testSpace.element _ htt, h.trialSpace.element _ hrg, Option.bind_eq_bind,
          Option.bind_some]
      all_goals simp [Sparse.ofTriplets, hlen]

end

/-! ### The hypotheses can be met -/

namespace Examples

/-- On a 32-bit machine a vector has at most `2^31 - 1` bytes and a cell takes 12 bytes. The cells of the sphere of level
11 fit into such a vector, but not the memory that is reserved for them. -/
example : ∃ s points cells, regularSphere (T := Int) 0 id 11 = some s ∧
    regularSphereReserves (T := Int) 0 id 11 = some (points, cells) ∧ 5 * (12 * s.cells.length) < 2 ^ 31 ∧
    ∃ r ∈ cells, 2 ^ 31 ≤ 12 * r.reserved := by
  obtain ⟨s, p, c, h1, h2, -, -, h5⟩ := C91_sphere_partial (T := Int) 0 id 11
  obtain ⟨s', e1, -, e2, -⟩ := C30_sizes (T := Int) 0 id 11
  rw [h1] at e1
  cases e1
  refine ⟨s, p, c, h1, h2, by rw [e2]; decide, ⟨8 * 6 ^ 10, 8 * 4 ^ 11⟩, ?_, by decide⟩
  rw [h5]
  exact List.mem_map.mpr ⟨10, by decide, rfl⟩

/-- The single layer operator on the octahedron with batches of up to 5 pairs. -/
example : ∃ fs, ∃ tb : SingTables Rat Rat, ∃ bl, SerialSpace fs p1 ∧
    let asm := Laplace.singleLayer (kernelOf squareKernel) (smallOptions.setBatchSize 5)
    let sp := spaceOf fs p1 octGeometry p1Basis
    singTables exEnv asm sp sp = some tb ∧
    MakeCellBlocks (fun tt rt pairs => tb.pairIndices.get? (tt, rt, pairs)) tb.pairIndices.length
      octahedron 5 (some bl) ∧
    ∀ batch ∈ bl, ∃ rule s n, tb.rules[batch.1]? = some rule ∧
      assembleBatchSingular exEnv asm (fs.globalSize, fs.globalSize) sp sp batch.2 rule = some s ∧
      batchCapacity sp sp batch.2 rule = some n ∧ s.data.length = n := by
  obtain ⟨fs, h, hg⟩ := octSpace
  have hset := octSingularSetting (asm := Laplace.singleLayer (kernelOf squareKernel)
    (smallOptions.setBatchSize 5)) h hg (exSingle_computes _) (by decide)
  obtain ⟨tb, bl, h1, h2, h3⟩ := C91_batches_partial hset (by decide)
  have hg' : (spaceOf fs p1 octGeometry p1Basis).fs.grid = octahedron := hg
  rw [hg'] at h2
  refine ⟨fs, tb, bl, h, h1, (h2 _).mpr rfl, fun b hb => ?_⟩
  obtain ⟨rule, s, n, a1, a2, a3, -, -, a6⟩ := h3 b hb
  exact ⟨rule, s, n, a1, a2, a3, a6⟩

end Examples
end Bempp
