import Verif.Proofs.Symmetric
import Verif.Props.Congruent
import Verif.Props.ShapeRounding
/-
C94: symmetric spheres give symmetric matrices.
-/
set_option linter.unusedSectionVars false

namespace Bempp
open Examples

section
variable {T : Type} [Zero T] [One T] [Neg T] [Add T] [Mul T] [Div T] {half : T} {sqrt : T → T}

theorem newPoint_commutes (h : SignLaws (T := T)) (a b : T × T × T) : newPoint half sqrt a b = newPoint half sqrt b a := by
  simp only [newPoint, h.add_comm a.1 b.1, h.add_comm a.2.1 b.2.1, h.add_comm a.2.2 b.2.2]

theorem newPoint_quarter (h : SignLaws (T := T)) (a b : T × T × T) :
    newPoint half sqrt (quarterTurnZ a) (quarterTurnZ b) = quarterTurnZ (newPoint half sqrt a b) := by
  simp only [newPoint, quarterTurnZ, h.neg_add, h.mul_neg half, h.neg_mul_neg, h.neg_div,
    h.squares (half * (a.2.1 + b.2.1)) (half * (a.1 + b.1))]

theorem newPoint_half (h : SignLaws (T := T)) (a b : T × T × T) :
    newPoint half sqrt (halfTurnXY a) (halfTurnXY b) = halfTurnXY (newPoint half sqrt a b) := by
  simp only [newPoint, halfTurnXY, h.neg_add, h.mul_neg half, h.neg_mul_neg, h.neg_div,
    h.squares (half * (a.2.1 + b.2.1)) (half * (a.1 + b.1))]

/-- The triangles of the octahedron. -/
def startCells : List Tri :=
  [⟨0, 1, 2⟩, ⟨0, 2, 3⟩, ⟨0, 3, 4⟩, ⟨0, 4, 1⟩, ⟨5, 2, 1⟩, ⟨5, 3, 2⟩, ⟨5, 4, 3⟩, ⟨5, 1, 4⟩]

instance (ord : Bool) (t t' : Tri) : Decidable (SameTri ord t t') := by unfold SameTri; infer_instance

theorem getD_lt {l : List Nat} {v : Nat} (h : v < l.length) : l.getD v 0 = l[v] := by
  rw [List.getD_eq_getElem?_getD, List.getElem?_eq_getElem h, Option.getD_some]

/-- What has to be checked for a map of the octahedron. -/
theorem octahedron_meshMap {ord : Bool} {f : T × T × T → T × T × T} (l : List Nat) (hl : l.Perm (List.range 6))
    (points : ∀ v, v < 6 → (octahedronStart (T := T)).points[l.getD v 0]? =
      ((octahedronStart (T := T)).points[v]?).map f)
    (cells : ∀ t ∈ startCells, ∃ t' ∈ startCells, SameTri ord (Tri.map (fun v => l.getD v 0) t) t') : MeshMap ord f (octahedronStart (T := T)) fun v => l.getD v 0 where
  lt := by
    intro v hv
    have hlen : l.length = 6 := by rw [hl.length_eq]; rfl
    have hv6 : v < l.length := by rw [hlen]; exact hv
    have : l.getD v 0 ∈ l := by rw [getD_lt hv6]; exact List.getElem_mem _
    exact List.mem_range.mp (hl.subset this)
  inj := by
    intro v w hv hw e
    have hlen : l.length = 6 := by rw [hl.length_eq]; rfl
    have hv6 : v < l.length := by rw [hlen]; exact hv
    have hw6 : w < l.length := by rw [hlen]; exact hw
    rw [getD_lt hv6, getD_lt hw6] at e
    exact (List.Nodup.getElem_inj_iff (hl.nodup_iff.mpr List.nodup_range)).mp e
  point := by
    intro v x hx
    have hv : v < 6 := (List.getElem?_eq_some_iff.mp hx).1
    rw [points v hv, hx]
    rfl
  cell := cells

theorem quarter_start (h : SignLaws (T := T)) : MeshMap true quarterTurnZ (octahedronStart (T := T))
    fun v => [0, 2, 3, 4, 1, 5].getD v 0 := by
  refine octahedron_meshMap _ (by decide) ?_ (by decide)
  intro v hv
  interval_cases v <;> simp [octahedronStart, quarterTurnZ, h.neg_zero, h.neg_neg]

theorem half_start (h : SignLaws (T := T)) : MeshMap true halfTurnXY (octahedronStart (T := T))
    fun v => [5, 2, 1, 4, 3, 0].getD v 0 := by
  refine octahedron_meshMap _ (by decide) ?_ (by decide)
  intro v hv
  interval_cases v <;> simp [octahedronStart, halfTurnXY, h.neg_zero, h.neg_neg]

theorem Shape.at_lt {s : Shape T} {v : Nat} {x : T × T × T} (h : s.at v = some x) : v < s.points.length := by
  by_contra hc
  unfold Shape.at at h
  rw [List.getElem?_eq_none (by omega)] at h
  cases h

theorem Shape.at_some {s : Shape T} {v : Nat} (h : v < s.points.length) : ∃ x, s.at v = some x :=
  ⟨_, by unfold Shape.at; rw [List.getElem?_eq_getElem h]; rfl⟩

theorem Shape.MovedInto.trans {s s' s'' : Shape T} {f f' : T × T × T → T × T × T} {p q p' q' : Nat → Nat}
    (h : s.MovedInto s' f p q) (h' : s'.MovedInto s'' f' p' q') :
    s.MovedInto s'' (fun x => f' (f x)) (fun v => p' (p v)) fun k => q' (q k) where
  point := fun v x hx => h'.point _ _ (h.point _ _ hx)
  pointInj := by
    intro v w hv hw e
    obtain ⟨x, hx⟩ := s.at_some hv
    obtain ⟨y, hy⟩ := s.at_some hw
    exact h.pointInj v w hv hw (h'.pointInj _ _ (Shape.at_lt (h.point _ _ hx)) (Shape.at_lt (h.point _ _ hy)) e)
  cell := by
    intro k c hk
    obtain ⟨n, hn⟩ := h.cell k c hk
    obtain ⟨n', hn'⟩ := h'.cell _ _ hn
    exact ⟨n', by rw [hn', List.map_map]; rfl⟩
  cellInj := by
    intro k l hk hl e
    obtain ⟨n, hn⟩ := h.cell k _ (List.getElem?_eq_getElem hk)
    obtain ⟨n', hn'⟩ := h.cell l _ (List.getElem?_eq_getElem hl)
    exact h.cellInj k l hk hl (h'.cellInj _ _ (List.getElem?_eq_some_iff.mp hn).1 (List.getElem?_eq_some_iff.mp hn').1 e)

/-- **C94.** Spheres of every level are mapped to themselves by the eight turns of a square in the plane of the first two
coordinates, with the corners of every cell in order. This is exact, not only up to rounding errors, in every arithmetic
in which the result of an operation does not depend on the order of its two arguments and changes its sign with them. -/
theorem C94_turns (h : SignLaws (T := T)) {n : Nat} {s : Shape T} (hs : regularSphere half sqrt n = some s)
    {f : T × T × T → T × T × T} (hf : SquareTurn f) : ∃ p q, s.MovedInto s f p q := by
  have gen : ∀ {f : T × T × T → T × T × T},
      (∀ a b, newPoint half sqrt (f a) (f b) = f (newPoint half sqrt a b)) →
      (∃ p, MeshMap true f (octahedronStart (T := T)) p) → ∃ p q, s.MovedInto s f p q := by
    intro f equi start
    obtain ⟨S, e, hi, p, hp⟩ := sphere_meshMap (newPoint_commutes h) equi start n
    obtain rfl : s = S.shape := Option.some_inj.mp (hs.symm.trans (regularSphere_eq e))
    exact ⟨_, _, hp.movedInto hi⟩
  induction hf with
  | identity =>
    exact ⟨id, id, fun v x hx => hx, fun v w _ _ e => e, fun k c hk => ⟨c.1, by rw [List.map_id]; exact hk⟩,
      fun k l _ _ e => e⟩
  | quarter _ ih =>
    obtain ⟨p, q, ih⟩ := ih
    obtain ⟨p', q', hq⟩ := gen (newPoint_quarter h) ⟨_, quarter_start h⟩
    exact ⟨_, _, ih.trans hq⟩
  | half _ ih =>
    obtain ⟨p, q, ih⟩ := ih
    obtain ⟨p', q', hq⟩ := gen (newPoint_half h) ⟨_, half_start h⟩
    exact ⟨_, _, ih.trans hq⟩

end

theorem real_signLaws : SignLaws (T := ℝ) where
  neg_zero := by simp
  neg_neg := by simp
  add_comm := add_comm
  neg_add := fun a b => by ring
  mul_neg := fun a b => by ring
  neg_mul_neg := fun a b => by ring
  neg_div := fun a b => by ring
  squares := fun a b => by ring

/-- **C94.** The laws hold in exact arithmetic, and in floating point arithmetic if the rounding function is odd and leaves
rounded numbers as they are. -/
theorem C94_arithmetic : SignLaws (T := ℝ) ∧ ∀ (u : ℝ) (f : ℝ → ℝ) (h : ∀ x, ‖f x - x‖ ≤ u * ‖x‖),
    (∀ x, f (-x) = -f x) → (∀ x, f (f x) = f x) → SignLaws (T := Fl (Arith.ofRound f h)) := by
  refine ⟨real_signLaws, fun u f h odd idem => ?_⟩
  constructor
  · exact (neg_zero : -(0 : ℝ) = 0)
  · exact (neg_neg : ∀ a : ℝ, - -a = a)
  · intro a b
    show f (a.val + b.val) = f (b.val + a.val)
    rw [add_comm]
  · intro a b
    show f (-a.val + -b.val) = -f (a.val + b.val)
    rw [← odd, neg_add]
  · intro a b
    show f (a.val * -b.val) = -f (a.val * b.val)
    rw [← odd, mul_neg]
  · intro a b
    show f (-a.val * -b.val) = f (a.val * b.val)
    rw [neg_mul_neg]
  · intro a b
    show f (-a.val / b.val) = -f (a.val / b.val)
    rw [← odd, neg_div]
  · intro a b
    show f (f ((0 : ℝ) + f (a.val * a.val)) + f (b.val * b.val)) =
      f (f ((0 : ℝ) + f (b.val * b.val)) + f (a.val * a.val))
    rw [zero_add, zero_add, idem, idem, add_comm]

/-! ### All symmetries of the cube, in exact arithmetic -/

theorem Shape.Invariant.trans {s : Shape ℝ} {f f' : Vec → Vec} {p p' : Nat → Nat} (h : s.Invariant f p)
    (h' : s.Invariant f' p') : s.Invariant (fun x => f' (f x)) fun v => p' (p v) where
  point := fun v x hx => h'.point _ _ (h.point _ _ hx)
  pointInj := by
    intro v w hv hw e
    obtain ⟨x, hx⟩ := s.at_some hv
    obtain ⟨y, hy⟩ := s.at_some hw
    exact h.pointInj v w hv hw (h'.pointInj _ _ (Shape.at_lt (h.point _ _ hx)) (Shape.at_lt (h.point _ _ hy)) e)
  cell := by
    intro c hc
    obtain ⟨c1, h1, e1⟩ := h.cell c hc
    obtain ⟨c2, h2, e2⟩ := h'.cell c1 h1
    refine ⟨c2, h2, e2.trans ?_⟩
    have := e1.map p'
    rwa [List.map_map] at this

/-- **C94.** In exact arithmetic, spheres of every level are mapped to themselves by all 48 symmetries of the cube. -/
theorem C94_cube {n : Nat} {s : Shape ℝ} (hs : realSphere n = some s) {f : Vec → Vec} (hf : CubeSymmetry f) :
    ∃ p, s.Invariant f p := by
  have gen : ∀ {f : Vec → Vec},
      (∀ a b, newPoint (1 / 2) Real.sqrt (f a) (f b) = f (newPoint (1 / 2) Real.sqrt a b)) →
      (∃ p, MeshMap false f (octahedronStart (T := ℝ)) p) → ∃ p, s.Invariant f p := by
    intro f equi start
    obtain ⟨S, e, hi, p, hp⟩ := sphere_meshMap (newPoint_commutes real_signLaws) equi start n
    obtain rfl : s = S.shape := Option.some_inj.mp (hs.symm.trans (regularSphere_eq e))
    exact ⟨_, hp.invariant hi⟩
  induction hf with
  | identity =>
    exact ⟨id, fun v x hx => hx, fun v w _ _ e => e, fun c hc => ⟨c, hc, by rw [List.map_id]⟩⟩
  | swap12 _ ih =>
    obtain ⟨p, ih⟩ := ih
    obtain ⟨p', hq⟩ := gen (f := fun x => (x.2.1, x.1, x.2.2)) (fun a b => by
      simp only [newPoint]
      rw [real_signLaws.squares]) ⟨_, octahedron_meshMap [0, 2, 1, 4, 3, 5] (by decide) (by
        intro v hv
        interval_cases v <;> simp [octahedronStart]) (by decide)⟩
    exact ⟨_, ih.trans hq⟩
  | swap23 _ ih =>
    obtain ⟨p, ih⟩ := ih
    obtain ⟨p', hq⟩ := gen (f := fun x => (x.1, x.2.2, x.2.1)) (fun a b => by
      simp only [newPoint]
      rw [add_right_comm]) ⟨_, octahedron_meshMap [2, 1, 0, 3, 5, 4] (by decide) (by
        intro v hv
        interval_cases v <;> simp [octahedronStart]) (by decide)⟩
    exact ⟨_, ih.trans hq⟩
  | sign1 _ ih =>
    obtain ⟨p, ih⟩ := ih
    obtain ⟨p', hq⟩ := gen (f := fun x => (-x.1, x.2.1, x.2.2)) (fun a b => by
      simp only [newPoint, real_signLaws.neg_add, real_signLaws.mul_neg (1 / 2), real_signLaws.neg_mul_neg,
        real_signLaws.neg_div]) ⟨_, octahedron_meshMap [0, 3, 2, 1, 4, 5] (by decide) (by
        intro v hv
        interval_cases v <;> simp [octahedronStart]) (by decide)⟩
    exact ⟨_, ih.trans hq⟩

/-! ### The matrices -/

theorem SquareTurn.matrix {f : Vec → Vec} (h : SquareTurn f) :
    ∃ A, Orthonormal3 A ∧ detA A = 1 ∧ f = AffineMap3 1 A fun _ => 0 := by
  induction h with
  | identity =>
    refine ⟨fun i j => if i = j then 1 else 0, identity_orthonormal, identity_det, ?_⟩
    funext x
    simp [AffineMap3]
  | @quarter f _ ih =>
    obtain ⟨A, h1, h2, rfl⟩ := ih
    refine ⟨fun i j => if i = 0 then -A 1 j else if i = 1 then A 0 j else A 2 j, ?_, ?_, ?_⟩
    · intro j k hj hk
      simp only [if_true, if_false, one_ne_zero, OfNat.ofNat_ne_zero, OfNat.ofNat_ne_one]
      rw [← h1 j k hj hk]; ring
    · simp only [detA, if_true, if_false, one_ne_zero, OfNat.ofNat_ne_zero, OfNat.ofNat_ne_one] at h2 ⊢
      rw [← h2]; ring
    · funext x
      simp only [AffineMap3, quarterTurnZ, if_true, if_false, one_ne_zero, OfNat.ofNat_ne_zero, OfNat.ofNat_ne_one]
      refine Prod.ext ?_ rfl
      simp only
      ring
  | @half f _ ih =>
    obtain ⟨A, h1, h2, rfl⟩ := ih
    refine ⟨fun i j => if i = 0 then A 1 j else if i = 1 then A 0 j else -A 2 j, ?_, ?_, ?_⟩
    · intro j k hj hk
      simp only [if_true, if_false, one_ne_zero, OfNat.ofNat_ne_zero, OfNat.ofNat_ne_one]
      rw [← h1 j k hj hk]; ring
    · simp only [detA, if_true, if_false, one_ne_zero, OfNat.ofNat_ne_zero, OfNat.ofNat_ne_one] at h2 ⊢
      rw [← h2]; ring
    · funext x
      simp only [AffineMap3, halfTurnXY, if_true, if_false, one_ne_zero, OfNat.ofNat_ne_zero, OfNat.ofNat_ne_one]
      refine Prod.ext rfl (Prod.ext rfl ?_)
      simp only
      ring

theorem OperatorWith.self {R T : Type} [Field R] [Field T] {φ : R →+* T} {o : Options} {K : MathKernel R T}
    {asm : Assembler R T} {F : MathIntegrand T} (h : OperatorWith φ o K asm F) :
    ∃ e, ScaledOperator φ o 1 K K asm asm (e + 1) := by
  cases h with
  | laplaceSingleLayer h => exact ⟨_, .laplaceSingleLayer h h⟩
  | laplaceDoubleLayer h => exact ⟨_, .laplaceDoubleLayer h h⟩
  | laplaceAdjoint h => exact ⟨_, .laplaceAdjoint h h⟩
  | laplaceHypersingular h => exact ⟨_, .laplaceHypersingular h h⟩
  | @helmholtzSingleLayer k w h => exact ⟨_, .helmholtzSingleLayer h h (by rw [one_mul])⟩
  | @helmholtzDoubleLayer k w h => exact ⟨_, .helmholtzDoubleLayer h h (by rw [one_mul])⟩
  | @helmholtzAdjoint k w h => exact ⟨_, .helmholtzAdjoint h h (by rw [one_mul])⟩
  | @helmholtzHypersingular k w h => exact ⟨_, .helmholtzHypersingular h h (by rw [one_mul])⟩

section
variable {s : Shape ℝ} {g : Grid} {pt cl : Nat → Nat} {V : Nat → Nat → Nat → ℝ} {n : Nat} {f : Vec → Vec} {o : Options}
  {Q : Quadrature ℝ} {famT famR : CellType → ElementDofs} {kT kR : Nat → Nat}

/-- The turned sphere is the same surface with other numbers. -/
theorem sphere_turned {test trial : FunctionSpace} (hs : realSphere n = some s) (hf : SquareTurn f)
    (hb : Built s .triangle g pt cl) (hV : HasCorners s g pt V) (g1 : test.grid = g) (g2 : trial.grid = g) :
    ∃ num A, Orthonormal3 A ∧ detA A = 1 ∧ RenumberedPair test trial test trial num num ∧
      MovedVertices 1 A (fun _ => 0) g (num 2) 3 V V ∧
      ∀ c ∈ g.entityIter 2, ∃ c' ∈ g.entityIter 2, c'.localIndex = num 2 c.localIndex ∧ ∀ k, k < 3 →
        (V c'.localIndex k 0, V c'.localIndex k 1, V c'.localIndex k 2) =
          f (V c.localIndex k 0, V c.localIndex k 1, V c.localIndex k 2) := by
  obtain ⟨A, h1, h2, rfl⟩ := hf.matrix
  obtain ⟨p, q, hm⟩ := C94_turns real_signLaws hs hf
  obtain ⟨num, hp, hpt, -⟩ := hb.part hb hm
  have hr := hp.renumbering hb.wf hb.wf (fun t ht => ht) fun _ _ => rfl
  have hv := hb.moved_vertices hV hV hm hp hpt
  refine ⟨num, A, h1, h2, ⟨by rw [g1]; exact hr, by rw [g2]; exact hr, Iff.rfl, fun _ => rfl⟩, hv, fun c hc => ?_⟩
  obtain ⟨c', hc', e, -, -⟩ := hp.cell c hc
  refine ⟨c', hc', e, fun k hk => ?_⟩
  have h0 := hv c hc k 0 hk (by omega)
  have h1 := hv c hc k 1 hk (by omega)
  have h2 := hv c hc k 2 hk (by omega)
  rw [e, h0, h1, h2]
  rfl

/-- **C94.** The matrices of the Laplace operators on a sphere have the symmetries of the sphere, whatever numbers the grid
builder gives to points and cells: a turn of the sphere permutes cells and DOFs, and entries for turned DOFs are the
same. -/
theorem C94_laplace {env : Env ℝ ℝ} {asm : Assembler ℝ ℝ} {trial test : Space ℝ ℝ} {F : MathIntegrand ℝ}
    {BT BR : Basis ℝ ℝ} (hcast : env.cast = id) (hs : realSphere n = some s) (hf : SquareTurn f)
    (hb : Built s .triangle g pt cl) (hV : HasCorners s g pt V)
    (hT : (famT .triangle).Uniform .triangle kT) (hR : (famR .triangle).Uniform .triangle kR)
    (hmT : FunctionSpace.new 0 1 g famT = .done test.fs) (hmR : FunctionSpace.new 0 1 g famR = .done trial.fs)
    (hgT : GeometryOk test (vertexGeometry triangleFunctions V))
    (hgR : GeometryOk trial (vertexGeometry triangleFunctions V)) (hbT : TabulateOk test famT BT)
    (hbR : TabulateOk trial famR BR) (hreg : RegularOk env o Q .triangle) (hsing : SingularOk env o Q .triangle .triangle)
    (ho : OperatorWith env.cast o laplaceGreen asm F) (hbatch : 0 < o.batchSize) :
    ∃ (M : List ℝ) (num pT pR : Nat → Nat), (∀ out, Assemble env asm trial test out ↔ out = some M) ∧
      (∀ c ∈ g.entityIter 2, ∃ c' ∈ g.entityIter 2, c'.localIndex = num c.localIndex ∧ ∀ k, k < 3 →
        (V c'.localIndex k 0, V c'.localIndex k 1, V c'.localIndex k 2) =
          f (V c.localIndex k 0, V c.localIndex k 1, V c.localIndex k 2)) ∧
      SameDofs test.fs test.fs num pT ∧ SameDofs trial.fs trial.fs num pR ∧
      ∀ i j, i < test.fs.globalSize → j < trial.fs.globalSize →
        M[pT i + test.fs.globalSize * pR j]? = M[i + test.fs.globalSize * j]? := by
  obtain ⟨h, g1, g2⟩ := shape_pair (t := .triangle) (V := V) (.inl ⟨hs, rfl⟩) hb hT hR hmT hmR hgT hgR hbT hbR hreg hsing
  obtain ⟨num, A, hA, hd, hn, hv, hc⟩ := sphere_turned hs hf hb hV g1 g2
  have ho' : OperatorWith (RingHom.id ℝ) o laplaceGreen asm F := by rw [hcast] at ho; exact ho
  obtain ⟨e, hsc⟩ := ho'.self
  obtain ⟨M, M', pT, pR, m, m', dT, dR, eq⟩ := C75_laplace h h hcast hsc hbatch hn one_pos hA C75_cells.1 C75_cells.1
    (by rw [g1]; exact hv) (by rw [g2]; exact hv)
  obtain rfl : M = M' := Option.some.inj ((m' _).mp ((m _).mpr rfl))
  refine ⟨M, num 2, pT, pR, m, hc, dT, dR, fun i j hi hj => ?_⟩
  rw [eq i j hi hj, hd]
  simp

/-- **C94** for the Helmholtz operators. -/
theorem C94_helmholtz {env : Env ℝ ℂ} {asm : Assembler ℝ ℂ} {trial test : Space ℝ ℂ} {F : MathIntegrand ℂ} {w : ℝ}
    {BT BR : Basis ℝ ℂ} (hcast : env.cast = Complex.ofReal) (hs : realSphere n = some s) (hf : SquareTurn f)
    (hb : Built s .triangle g pt cl) (hV : HasCorners s g pt V)
    (hT : (famT .triangle).Uniform .triangle kT) (hR : (famR .triangle).Uniform .triangle kR)
    (hmT : FunctionSpace.new 0 1 g famT = .done test.fs) (hmR : FunctionSpace.new 0 1 g famR = .done trial.fs)
    (hgT : GeometryOk test (vertexGeometry triangleFunctions V))
    (hgR : GeometryOk trial (vertexGeometry triangleFunctions V)) (hbT : TabulateOk test famT BT)
    (hbR : TabulateOk trial famR BR) (hreg : RegularOk env o Q .triangle) (hsing : SingularOk env o Q .triangle .triangle)
    (ho : OperatorWith env.cast o (helmholtzGreen w) asm F) (hbatch : 0 < o.batchSize) :
    ∃ (M : List ℂ) (num pT pR : Nat → Nat), (∀ out, Assemble env asm trial test out ↔ out = some M) ∧
      (∀ c ∈ g.entityIter 2, ∃ c' ∈ g.entityIter 2, c'.localIndex = num c.localIndex ∧ ∀ k, k < 3 →
        (V c'.localIndex k 0, V c'.localIndex k 1, V c'.localIndex k 2) =
          f (V c.localIndex k 0, V c.localIndex k 1, V c.localIndex k 2)) ∧
      SameDofs test.fs test.fs num pT ∧ SameDofs trial.fs trial.fs num pR ∧
      ∀ i j, i < test.fs.globalSize → j < trial.fs.globalSize →
        M[pT i + test.fs.globalSize * pR j]? = M[i + test.fs.globalSize * j]? := by
  obtain ⟨h, g1, g2⟩ := shape_pair (t := .triangle) (V := V) (.inl ⟨hs, rfl⟩) hb hT hR hmT hmR hgT hgR hbT hbR hreg hsing
  obtain ⟨num, A, hA, hd, hn, hv, hc⟩ := sphere_turned hs hf hb hV g1 g2
  have ho' : OperatorWith Complex.ofRealHom o (helmholtzGreen w) asm F := by rw [hcast] at ho; exact ho
  obtain ⟨e, hsc⟩ := ho'.self
  obtain ⟨M, M', pT, pR, m, m', dT, dR, eq⟩ := C75_helmholtz (s := 1) (w := w) (asm := asm) (asm' := asm) h h hcast
    (by rw [div_one]; exact hsc) hbatch hn one_pos hA C75_cells.1 C75_cells.1
    (by rw [g1]; exact hv) (by rw [g2]; exact hv)
  obtain rfl : M = M' := Option.some.inj ((m' _).mp ((m _).mpr rfl))
  refine ⟨M, num 2, pT, pR, m, hc, dT, dR, fun i j hi hj => ?_⟩
  rw [eq i j hi hj, hd]
  simp

end

/-! ### The hypotheses can be met -/

namespace Examples

/-- Rounding towards 0 to 53 binary digits. -/
noncomputable def trunc53 (x : ℝ) : ℝ :=
  SignType.sign x * (⌊|x| / 2 ^ (Int.log 2 |x| - 52)⌋ * 2 ^ (Int.log 2 |x| - 52))

theorem trunc53_odd (x : ℝ) : trunc53 (-x) = -trunc53 x := by
  unfold trunc53
  rw [abs_neg, Left.sign_neg]
  push_cast
  ring

/-- The absolute value of a rounded number. -/
theorem trunc53_pos {x : ℝ} (hx : x ≠ 0) : ∃ m : ℤ, |trunc53 x| = m * 2 ^ (Int.log 2 |x| - 52) ∧
    (2 : ℝ) ^ Int.log 2 |x| ≤ |trunc53 x| ∧ |trunc53 x| ≤ |x| ∧ |x| - |trunc53 x| ≤ 2 ^ (Int.log 2 |x| - 52) := by
  have h0 : 0 < |x| := abs_pos.mpr hx
  have p : (0 : ℝ) < 2 ^ (Int.log 2 |x| - 52) := by positivity
  have h2 : ((2 : ℕ) : ℝ) ^ Int.log 2 |x| ≤ |x| := Int.zpow_log_le_self (by norm_num) h0
  have hfl : (2 : ℤ) ^ 52 ≤ ⌊|x| / 2 ^ (Int.log 2 |x| - 52)⌋ := by
    rw [Int.le_floor, le_div_iff₀ p, zpow_sub₀ (by norm_num)]
    push_cast at h2 ⊢
    refine le_trans (le_of_eq ?_) h2
    rw [show ((2 : ℝ) ^ (52 : ℤ)) = 2 ^ 52 by norm_cast]
    field_simp
    norm_num
  have hs : |((SignType.sign x : SignType) : ℝ)| = 1 := by
    rcases lt_or_gt_of_ne hx with h | h
    · rw [sign_neg h]; simp
    · rw [sign_pos h]; simp
  have e : |trunc53 x| = ⌊|x| / 2 ^ (Int.log 2 |x| - 52)⌋ * 2 ^ (Int.log 2 |x| - 52) := by
    unfold trunc53
    rw [abs_mul, hs, one_mul, abs_of_nonneg]
    have : (0 : ℝ) ≤ ⌊|x| / 2 ^ (Int.log 2 |x| - 52)⌋ := by
      have : (0 : ℤ) ≤ ⌊|x| / 2 ^ (Int.log 2 |x| - 52)⌋ := le_trans (by positivity) hfl
      exact_mod_cast this
    positivity
  refine ⟨_, e, ?_, ?_, ?_⟩
  · rw [e]
    have h3 : ((2 : ℝ) ^ 52) ≤ ⌊|x| / 2 ^ (Int.log 2 |x| - 52)⌋ := by exact_mod_cast hfl
    refine le_trans (le_of_eq ?_) (mul_le_mul_of_nonneg_right h3 p.le)
    rw [zpow_sub₀ (by norm_num), show ((2 : ℝ) ^ (52 : ℤ)) = 2 ^ 52 by norm_cast]
    field_simp
  · rw [e, ← le_div_iff₀ p]
    exact Int.floor_le _
  · rw [e]
    have := Int.lt_floor_add_one (|x| / 2 ^ (Int.log 2 |x| - 52))
    rw [div_lt_iff₀ p] at this
    nlinarith

theorem trunc53_sign {x : ℝ} (hx : x ≠ 0) : trunc53 x = SignType.sign x * |trunc53 x| := by
  obtain ⟨m, e, h1, -, -⟩ := trunc53_pos hx
  have p : (0 : ℝ) < 2 ^ Int.log 2 |x| := by positivity
  have hs : |((SignType.sign x : SignType) : ℝ)| = 1 := by
    rcases lt_or_gt_of_ne hx with h | h
    · rw [sign_neg h]; simp
    · rw [sign_pos h]; simp
  have : |trunc53 x| = ⌊|x| / 2 ^ (Int.log 2 |x| - 52)⌋ * 2 ^ (Int.log 2 |x| - 52) := by
    unfold trunc53
    rw [abs_mul, hs, one_mul, abs_of_nonneg]
    have : (0 : ℝ) ≤ ⌊|x| / 2 ^ (Int.log 2 |x| - 52)⌋ := by
      have : (0 : ℤ) ≤ ⌊|x| / 2 ^ (Int.log 2 |x| - 52)⌋ := Int.floor_nonneg.mpr (by positivity)
      exact_mod_cast this
    positivity
  rw [this]
  rfl

theorem trunc53_err (x : ℝ) : ‖trunc53 x - x‖ ≤ 2⁻¹ ^ 52 * ‖x‖ := by
  by_cases hx : x = 0
  · subst hx; simp [trunc53]
  obtain ⟨m, e, h1, h2, h3⟩ := trunc53_pos hx
  have h0 : 0 < |x| := abs_pos.mpr hx
  have e1 : trunc53 x - x = SignType.sign x * (|trunc53 x| - |x|) := by
    rw [mul_sub, ← trunc53_sign hx, sign_mul_abs]
  have hs : |((SignType.sign x : SignType) : ℝ)| = 1 := by
    rcases lt_or_gt_of_ne hx with h | h
    · rw [sign_neg h]; simp
    · rw [sign_pos h]; simp
  rw [Real.norm_eq_abs, Real.norm_eq_abs, e1, abs_mul, hs, one_mul, abs_sub_comm, abs_of_nonneg (by linarith)]
  refine h3.trans ?_
  have h4 : ((2 : ℕ) : ℝ) ^ Int.log 2 |x| ≤ |x| := Int.zpow_log_le_self (by norm_num) h0
  rw [zpow_sub₀ (by norm_num), show ((2 : ℝ) ^ (52 : ℤ)) = 2 ^ 52 by norm_cast, div_eq_inv_mul, ← inv_pow]
  push_cast at h4
  exact mul_le_mul_of_nonneg_left h4 (by positivity)

theorem trunc53_idem (x : ℝ) : trunc53 (trunc53 x) = trunc53 x := by
  by_cases hx : x = 0
  · subst hx; simp [trunc53]
  obtain ⟨m, e, h1, h2, -⟩ := trunc53_pos hx
  have h0 : 0 < |x| := abs_pos.mpr hx
  have p : (0 : ℝ) < 2 ^ (Int.log 2 |x| - 52) := by positivity
  have hp : 0 < |trunc53 x| := lt_of_lt_of_le (by positivity) h1
  have hl : Int.log 2 |trunc53 x| = Int.log 2 |x| := by
    apply le_antisymm
    · exact Int.log_mono_right hp h2
    · refine (Int.zpow_le_iff_le_log (by norm_num) hp).mp ?_
      exact_mod_cast h1
  have hsg : SignType.sign (trunc53 x) = SignType.sign x := by
    rw [trunc53_sign hx, sign_mul, sign_pos hp, mul_one]
    rcases lt_or_gt_of_ne hx with h | h
    · rw [sign_neg h]; simp
    · rw [sign_pos h]; simp
  have hy (y : ℝ) : trunc53 y =
      SignType.sign y * (⌊|y| / 2 ^ (Int.log 2 |y| - 52)⌋ * 2 ^ (Int.log 2 |y| - 52)) := rfl
  rw [hy (trunc53 x), hl, hsg, e, mul_div_assoc, div_self p.ne', mul_one, Int.floor_intCast, ← e]
  exact (trunc53_sign hx).symm

/-- Floating point numbers with rounding towards 0. -/
noncomputable def realTrunc : Arith ℝ (2⁻¹ ^ 52) := Arith.ofRound trunc53 trunc53_err

/-- C94: the computed spheres are exactly symmetric. -/
example (sqrt : Fl realTrunc → Fl realTrunc) (n : Nat) : ∃ s, regularSphere halfFl sqrt n = some s ∧
    ∃ p q, s.MovedInto s quarterTurnZ p q := by
  obtain ⟨s, hs, -⟩ := C30_sizes (halfFl : Fl realTrunc) sqrt n
  exact ⟨s, hs, C94_turns (C94_arithmetic.2 _ trunc53 trunc53_err trunc53_odd trunc53_idem) hs (.quarter .identity)⟩

/-- C94: the Laplace hypersingular matrix with P1 functions on the spheres of all levels. -/
example (lev k : Nat) : ∃ (fs : FunctionSpace) (V : Nat → Nat → Nat → ℝ) (M : List ℝ) (num p q : Nat → Nat),
    fs.globalSize = 4 ^ (lev + 1) + 2 ∧
    (∀ out, Assemble latticeEnv (Laplace.hypersingular (kernelOf laplaceGreen) (latticeOptions k))
      (Examples.spaceOf fs p1 (vertexGeometry triangleFunctions V) realP1)
      (Examples.spaceOf fs p1 (vertexGeometry triangleFunctions V) realP1) out ↔ out = some M) ∧
    SameDofs fs fs num p ∧ SameDofs fs fs num q ∧
    ∀ i j, i < fs.globalSize → j < fs.globalSize →
      M[p i + fs.globalSize * q j]? = M[i + fs.globalSize * j]? := by
  obtain ⟨s, hs, -⟩ := C30_sizes (1 / 2 : ℝ) Real.sqrt lev
  have hl : LibraryShape lev .triangle s := .inl ⟨hs, rfl⟩
  obtain ⟨-, -, -, ⟨g, pt, cl, hb⟩, -⟩ := C47_conforming _ _ _ hl
  obtain ⟨V, hV⟩ := hb.exists_corners
  have hu := p1_uniform .triangle (by decide)
  obtain ⟨fs, h1, h2⟩ := C46_sphere _ _ hs hb hu
  obtain ⟨M, num, p, q, m, -, d1, d2, e⟩ := C94_laplace (env := latticeEnv) (o := latticeOptions k) (Q := latticeRules k)
    (V := V) (f := quarterTurnZ)
    (test := Examples.spaceOf fs p1 (vertexGeometry triangleFunctions V) realP1)
    (trial := Examples.spaceOf fs p1 (vertexGeometry triangleFunctions V) realP1)
    (asm := Laplace.hypersingular (kernelOf laplaceGreen) (latticeOptions k)) rfl hs (.quarter .identity) hb hV hu hu h1 h1
    (spaceOf_geometry fs p1 _ realP1) (spaceOf_geometry fs p1 _ realP1) (spaceOf_tabulate fs p1 _ realP1)
    (spaceOf_tabulate fs p1 _ realP1) (lattice_regular k) (lattice_singular k)
    (.laplaceHypersingular (kernelOf_computes laplaceGreen _)) (by show 0 < 128; decide)
  exact ⟨fs, V, M, num, p, q, by rw [h2]; simp, m, d1, d2, e⟩

end Examples

end Bempp
