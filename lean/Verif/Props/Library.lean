import Verif.Proofs.Library
import Verif.Props.ShapeFloat
import Verif.Props.ShapeRounding
/-
C89: from the points of a shape to the matrix, with all errors.
-/
namespace Bempp
open MeasureTheory Filter Topology

section
variable {s : Shape ℝ} {t : CellType} {g : Grid} {pt cl : Nat → Nat} {V : Nat → Nat → Nat → ℝ} {lev : Nat}

/-- The connectivities of touching cells of a surface. -/
theorem shape_possible (hs : LibraryShape lev t s) (hb : Built s t g pt cl) {c c' : Entity} (hc : c ∈ g.entityIter 2)
    (hc' : c' ∈ g.entityIter 2) (ht : c.Touches c') : (connectivity c c').Possible t t := by
  obtain ⟨-, -, -, -, hall⟩ := C47_conforming _ _ _ hs
  obtain ⟨-, -, -, ev, ed, co⟩ := hall g pt cl hb
  obtain ⟨h1, h2⟩ := sharedVertices_possible hb.wf ed co hc hc' ht
  obtain ⟨_, h3⟩ := possiblePairs_possible (hb.wf.cell_types _ (hb.wf.types c hc)) h1
  rwa [h2, hb.cell_type hc, hb.cell_type hc'] at h3

/-- The nodes of the rules. -/
def Quadrature.nodeSet (Q : Quadrature ℝ) (t : CellType) : Set (List ℝ) :=
  {x | ∃ p ∈ Q.regular t, x = p.1} ∪
    ⋃ con ∈ {con : Connectivity | con.Possible t t}, {x | ∃ p ∈ Q.singular t t con, x = p.1 ∨ x = p.2.1}

theorem Quadrature.nodeSet_finite (Q : Quadrature ℝ) (t : CellType) : (Q.nodeSet t).Finite := by
  refine Set.Finite.union ?_ ((possible_finite t t).biUnion fun con _ => ?_)
  · refine ((Q.regular t).map Prod.fst).finite_toSet.subset ?_
    rintro x ⟨p, hp, rfl⟩
    exact List.mem_map_of_mem hp
  · refine ((Q.singular t t con).map Prod.fst ++ (Q.singular t t con).map fun p => p.2.1).finite_toSet.subset ?_
    rintro x ⟨p, hp, rfl | rfl⟩
    · exact List.mem_append_left _ (List.mem_map_of_mem hp)
    · exact List.mem_append_right _ (List.mem_map.mpr ⟨p, hp, rfl⟩)

theorem Quadrature.Nodes.mem {Q Q' : Quadrature ℝ} {t : CellType} {x x' : List ℝ} (h : Q'.Nodes Q t x x') :
    x' ∈ Q.nodeSet t := by
  rcases h with ⟨p, hp, -, rfl⟩ | ⟨con, hcon, p, hp, h⟩
  · exact Or.inl ⟨p.2, (List.of_mem_zip hp).2, rfl⟩
  · refine Or.inr (Set.mem_biUnion hcon ⟨p.2, (List.of_mem_zip hp).2, ?_⟩)
    rcases h with ⟨-, rfl⟩ | ⟨-, rfl⟩
    · exact Or.inl rfl
    · exact Or.inr rfl

/-- **C89.** If the vertices of a sphere or a screen and the values that the libraries compute have small errors, then the
data that the matrix is assembled from are close to the exact ones. -/
theorem C89_data {T : Type} [RCLike T] {K : MathKernel ℝ T} (hK : ContinuousKernel K) (hs : LibraryShape lev t s)
    (hb : Built s t g pt cl) (hV : HasCorners s g pt V) {test trial : FunctionSpace} (hgT : test.grid = g)
    (hgR : trial.grid = g) (BT BR : Basis ℝ T) (dimT dimR : Nat) {Q : Quadrature ℝ} (hQ : SeparateNodes g t V Q) {e : ℝ}
    (he : 0 < e) :
    ∃ d > 0, ∀ d', 0 ≤ d' → d' ≤ d → ∀ (D : OperatorData T) V' Q', NearVertices d' g (cellFunctions t).n V' V →
      LibraryData d' D K t V' BT BR Q' Q test trial dimT dimR →
      D.Within e (shapeData K t V BT BR) (shapeData K t V BT BR).scales Q' Q test trial t dimT dimR := by
  set G := vertexGeometry (cellFunctions t) V with hG
  have hcells : {c | c ∈ g.entityIter 2}.Finite := (g.entityIter 2).finite_toSet
  -- the kernel
  have hpairs : ∀ z ∈ {c | c ∈ g.entityIter 2} ×ˢ {c | c ∈ g.entityIter 2}, {x : List ℝ × List ℝ |
      x ∈ Q.nodeSet t ×ˢ Q.nodeSet t ∧ G.coords z.1.localIndex x.1 ≠ G.coords z.2.localIndex x.2}.Finite := fun z _ =>
    ((Q.nodeSet_finite t).prod (Q.nodeSet_finite t)).subset fun x hx => hx.1
  obtain ⟨dk, hdk, hk⟩ := exists_common (hcells.prod hcells)
    (P := fun z d => ∀ x ∈ {x : List ℝ × List ℝ | x ∈ Q.nodeSet t ×ˢ Q.nodeSet t ∧
        G.coords z.1.localIndex x.1 ≠ G.coords z.2.localIndex x.2}, ∀ d', 0 ≤ d' → d' ≤ d → ∀ p r : Nat → ℝ,
        (∀ i, i < 3 → |p i - G.point z.1.localIndex x.1 i| ≤ d) → (∀ i, i < 3 → |r i - G.point z.2.localIndex x.2 i| ≤ d) →
        ∀ i, i < 4 → ∀ a : T, ‖a - K ((List.range 3).map p) ((List.range 3).map r) i‖ ≤
          d' * (1 + ‖K ((List.range 3).map p) ((List.range 3).map r) i‖) →
        ‖a - K (G.coords z.1.localIndex x.1) (G.coords z.2.localIndex x.2) i‖ ≤ e)
    (fun z _ d d1 _ h1 h x hx d' h0 h2 p r hp hr => h x hx d' h0 (h2.trans h1) p r (fun i hi => (hp i hi).trans h1)
      fun i hi => (hr i hi).trans h1)
    (fun z hz => exists_common (hpairs z hz) (fun x _ d d1 _ h1 h d' h0 h2 p r hp hr => h d' h0 (h2.trans h1) p r
      (fun i hi => (hp i hi).trans h1) fun i hi => (hr i hi).trans h1) fun x hx => near_kernel hK _ _ hx.2 he)
  -- the geometry
  obtain ⟨dg, hdg, hg⟩ := exists_common (hcells.prod (Q.nodeSet_finite t))
    (P := fun z d => ∀ d', 0 ≤ d' → d' ≤ d → ∀ V' (G' : Geometry ℝ) x,
      (∀ k i, k < (cellFunctions t).n → i < 3 → |V' z.1.localIndex k i - V z.1.localIndex k i| ≤ d') →
      Geometry.NearAt d' G' (vertexGeometry (cellFunctions t) V') z.1.localIndex x z.2 →
      Geometry.WithinAt (min e dk) G' G G.scales z.1.localIndex x z.2 ∧
        ∀ i, i < 3 → |G'.point z.1.localIndex x i - G.point z.1.localIndex z.2 i| ≤ min e dk)
    (fun z _ d d1 _ h1 h d' h0 h2 => h d' h0 (h2.trans h1))
    (fun z hz => near_cell _ V _ _ (shape_jdet hs hb hV hz.1 z.2) (lt_min he hdk))
  have weaken : ∀ {G' : Geometry ℝ} {c : Nat} {x x' : List ℝ}, Geometry.WithinAt (min e dk) G' G G.scales c x x' →
      Geometry.WithinAt e G' G G.scales c x x' := fun {G' c x x'} h =>
    ⟨fun i hi => ⟨(h.normal i hi).1.trans (by
        gcongr
        · exact add_nonneg zero_le_one (abs_nonneg _)
        · exact min_le_left _ _), (h.normal i hi).2⟩,
      fun i hi => ⟨(h.jacobian i hi).1.trans (by
        gcongr
        · exact add_nonneg zero_le_one (abs_nonneg _)
        · exact min_le_left _ _), (h.jacobian i hi).2⟩, h.scale,
      h.jdet.trans (by gcongr; exact min_le_left _ _), h.jdet'.trans (by gcongr; exact min_le_left _ _), h.pos⟩
  refine ⟨min e (min dk dg), lt_min he (lt_min hdk hdg), fun d' h0 h1 D V' Q' hV' hD => ?_⟩
  obtain ⟨h2, h3⟩ := le_min_iff.mp h1
  obtain ⟨h4, h5⟩ := le_min_iff.mp h3
  refine ⟨?_, ?_, ?_, ?_, ?_, ?_⟩
  · exact ⟨hD.weights.regular.imp fun p p' h => h.trans (by gcongr), fun con hcon =>
      (hD.weights.singular con hcon).imp fun p p' h => h.trans (by gcongr)⟩
  · intro c hc x x' hx
    rw [hgT] at hc
    exact weaken (hg (c, x') ⟨hc, hx.mem⟩ d' h0 h5 V' _ x (hV' c hc) (hD.testGeometry c (hgT ▸ hc) x x' hx)).1
  · intro c hc x x' hx
    rw [hgR] at hc
    exact weaken (hg (c, x') ⟨hc, hx.mem⟩ d' h0 h5 V' _ x (hV' c hc) (hD.trialGeometry c (hgR ▸ hc) x x' hx)).1
  · intro x x' hx a i ha hi
    exact ⟨(hD.testBasis x x' hx a i ha hi).trans (mul_le_mul_of_nonneg_right h2 (by positivity)),
      le_add_of_nonneg_left zero_le_one⟩
  · intro x x' hx a i ha hi
    exact ⟨(hD.trialBasis x x' hx a i ha hi).trans (mul_le_mul_of_nonneg_right h2 (by positivity)),
      le_add_of_nonneg_left zero_le_one⟩
  · intro c hc c' hc' x y x' y' hx i hi
    rw [hgT] at hc
    rw [hgR] at hc'
    have key : Q'.Nodes Q t x x' ∧ Q'.Nodes Q t y y' ∧ G.coords c.localIndex x' ≠ G.coords c'.localIndex y' := by
      have hx' := hx
      unfold Quadrature.Pairs at hx'
      rw [hb.cell_type hc, hb.cell_type hc', hgT, hgR] at hx'
      by_cases ht : c.Touches c'
      · rw [if_pos ⟨rfl, ht⟩] at hx'
        obtain ⟨p, hp, rfl, rfl, rfl, rfl⟩ := hx'
        exact ⟨.inr ⟨_, shape_possible hs hb hc hc' ht, p, hp, .inl ⟨rfl, rfl⟩⟩,
          .inr ⟨_, shape_possible hs hb hc hc' ht, p, hp, .inr ⟨rfl, rfl⟩⟩,
          hQ.singular c hc c' hc' ht p.2 (List.of_mem_zip hp).2⟩
      · rw [if_neg fun h => ht h.2] at hx'
        obtain ⟨⟨p, hp, rfl, rfl⟩, q, hq, rfl, rfl⟩ := hx'
        obtain ⟨z, hz, ez⟩ := hQ.regular p.2 (List.of_mem_zip hp).2
        obtain ⟨w, hw, ew⟩ := hQ.regular q.2 (List.of_mem_zip hq).2
        refine ⟨.inl ⟨p, hp, rfl, rfl⟩, .inl ⟨q, hq, rfl, rfl⟩, ?_⟩
        rw [ez, ew]
        exact ((C79_surface hs hb).2 V hV).2 c hc c' hc' ht z hz w hw
    obtain ⟨n1, n2, n3⟩ := key
    refine within_of_le he.le (hk (c, c') ⟨hc, hc'⟩ (x', y') ⟨⟨n1.mem, n2.mem⟩, n3⟩ d' h0 h4 _ _
      (fun i hi => ((hg (c, x') ⟨hc, n1.mem⟩ d' h0 h5 V' _ x (hV' c hc)
        (hD.testGeometry c (hgT ▸ hc) x x' n1)).2 i hi).trans (min_le_right _ _))
      (fun i hi => ((hg (c', y') ⟨hc', n2.mem⟩ d' h0 h5 V' _ y (hV' c' hc')
        (hD.trialGeometry c' (hgR ▸ hc') y y' n2)).2 i hi).trans (min_le_right _ _)) i hi _
      (hD.kernel c (hgT ▸ hc) c' (hgR ▸ hc') x y x' y' hx i hi))

theorem abs_le_of_dot {a b : Vec} {d : ℝ} (h : Real.sqrt (Vec.dot (a - b) (a - b)) ≤ d) :
    |a.1 - b.1| ≤ d ∧ |a.2.1 - b.2.1| ≤ d ∧ |a.2.2 - b.2.2| ≤ d := by
  have key : ∀ x : ℝ, x * x ≤ Vec.dot (a - b) (a - b) → |x| ≤ d := fun x hx =>
    (Real.abs_le_sqrt (by rw [sq]; exact hx)).trans h
  refine ⟨key _ ?_, key _ ?_, key _ ?_⟩ <;>
  · simp only [Vec.dot, Prod.fst_sub, Prod.snd_sub]
    nlinarith [mul_self_nonneg (a.1 - b.1), mul_self_nonneg (a.2.1 - b.2.1), mul_self_nonneg (a.2.2 - b.2.2)]

/-- **C89.** The shapes as they are computed: the cells are the exact ones, and with enough digits all coordinates are within
any tolerance of the exact ones. -/
theorem C89_shape (hs : LibraryShape lev t s) {d : ℝ} (hd : 0 < d) :
    ∃ u₀ > 0, ∀ u, 0 ≤ u → u ≤ u₀ → ∀ (A : Arith ℝ u) s', ComputedShape A lev t s s' →
      s'.cells = s.cells ∧ s'.points.length = s.points.length ∧
      ∀ v, v < s.points.length → ∃ a b, s'.values.at v = some a ∧ s.at v = some b ∧
        |a.1 - b.1| ≤ d ∧ |a.2.1 - b.2.1| ≤ d ∧ |a.2.2 - b.2.2| ≤ d := by
  have hn : (0 : ℝ) ≤ lev := Nat.cast_nonneg lev
  refine ⟨min (1 / (128 * ((lev : ℝ) ^ 2 + 1))) (min (d / (16 * lev + 4)) (1 / (8 * (lev + 1)))),
    lt_min (by positivity) (lt_min (by positivity) (by positivity)), fun u h0 hu A s' hc => ?_⟩
  obtain ⟨h1, h2⟩ := le_min_iff.mp hu
  obtain ⟨h2, h3⟩ := le_min_iff.mp h2
  have e1 : (lev : ℝ) ^ 2 * u ≤ 1 / 128 := by
    rw [le_div_iff₀ (by positivity)] at h1
    nlinarith
  have e2 : 16 * lev * u ≤ d ∧ 4 * u ≤ d := by
    rw [le_div_iff₀ (by positivity)] at h2
    constructor <;> nlinarith
  have e3 : (lev + 1) * u ≤ 1 / 8 := by
    rw [le_div_iff₀ (by positivity)] at h3
    linarith
  have screen : ∀ {fromNat : Nat → Fl A} {p : List (Nat × (ℝ × ℝ × ℝ))}, RoundedNat A fromNat →
      (screenTriangles fromNat lev = some s' ∨ screenQuadrilaterals fromNat lev = some s') →
      s.points = screenPoints (fun k => (k : ℝ)) lev → ∀ v, v < s.points.length → ∃ a b, s'.values.at v = some a ∧
        s.at v = some b ∧ |a.1 - b.1| ≤ d ∧ |a.2.1 - b.2.1| ≤ d ∧ |a.2.2 - b.2.2| ≤ d := by
    intro fromNat p hf h' hp v hv
    obtain ⟨⟨gg, -, -, g3, g4⟩, -⟩ := C71_screens h0 hf h' e3
    rw [hp, screenPoints_eq, List.length_map, List.length_range] at hv
    have hx : v % (lev + 1) < lev + 1 := Nat.mod_lt _ (by omega)
    have hy : v / (lev + 1) < lev + 1 := Nat.div_lt_of_lt_mul hv
    have ev : v / (lev + 1) * (lev + 1) + v % (lev + 1) = v := by
      rw [Nat.mul_comm]
      exact Nat.div_add_mod v (lev + 1)
    have k1 := g4 (v % (lev + 1)) (v / (lev + 1)) (by omega) (by omega)
    have k2 := screen_at _ hp hx hy
    rw [ev] at k1 k2
    have small : ∀ x : Nat, x < lev + 1 → |gg x - (x : ℝ) / ((lev + 1 : Nat) : ℝ)| ≤ d := by
      intro x hx
      rw [Nat.cast_add, Nat.cast_one]
      refine (g3 x).trans (le_trans ?_ e2.2)
      have : (x : ℝ) / (lev + 1) ≤ 1 := by
        rw [div_le_one (by positivity)]
        exact_mod_cast hx.le
      nlinarith
    refine ⟨_, _, k1, k2, small _ hx, small _ hy, ?_⟩
    simp [hd.le]
  rcases hc with ⟨rfl, hr, sqrt, hq, hc⟩ | ⟨rfl, hr, fromNat, hf, hc⟩ | ⟨rfl, hr, fromNat, hf, hc⟩
  · obtain ⟨s1, r, a1, a2, a3, a4, a5⟩ := C71_close h0 hq lev e1
    obtain rfl := Option.some.inj (hc.symm.trans a1)
    obtain rfl := Option.some.inj (hr.symm.trans a2)
    refine ⟨a3, a4, fun v hv => ?_⟩
    obtain ⟨a, b, b1, b2, b3⟩ := a5 v hv
    exact ⟨a, b, b1, b2, abs_le_of_dot (b3.trans e2.1)⟩
  · obtain ⟨-, p1, c1⟩ := screenTriangles_eq _ hr
    obtain ⟨-, p2, c2⟩ := screenTriangles_eq _ hc
    refine ⟨c2.trans c1.symm, ?_, screen (p := []) hf (.inl hc) p1⟩
    rw [p1, p2, screenPoints_eq, screenPoints_eq, List.length_map, List.length_map]
  · obtain ⟨-, p1, c1⟩ := screenQuadrilaterals_eq _ hr
    obtain ⟨-, p2, c2⟩ := screenQuadrilaterals_eq _ hc
    refine ⟨c2.trans c1.symm, ?_, screen (p := []) hf (.inr hc) p1⟩
    rw [p1, p2, screenPoints_eq, screenPoints_eq, List.length_map, List.length_map]

theorem Built.same {R T : Type} {s : Shape R} {s' : Shape T} (hb : Built s t g pt cl) (hc : s'.cells = s.cells)
    (hp : s'.points.length = s.points.length) : Built s' t g pt cl :=
  ⟨hb.wf, hb.surface, hb.types, hb.owned, hb.vertices, hb.edges, by rw [hp]; exact hb.points, by rw [hc]; exact hb.cells,
    by rw [hc]; exact hb.corners⟩

theorem cellFunctions_corners (hs : LibraryShape lev t s) : (cellFunctions t).n = refCount t 0 := by
  rcases hs with ⟨-, rfl⟩ | ⟨-, rfl⟩ | ⟨-, rfl⟩ <;> rfl

/-- The vertices that were computed are close to the exact ones. -/
theorem computed_vertices (hs : LibraryShape lev t s) (hb : Built s t g pt cl) (hV : HasCorners s g pt V) {d : ℝ} (hd : 0 < d) :
    ∃ u₀ > 0, ∀ u, 0 ≤ u → u ≤ u₀ → ∀ (A : Arith ℝ u) s' V', ComputedShape A lev t s s' → HasCorners s'.values g pt V' →
      NearVertices d g (cellFunctions t).n V' V := by
  obtain ⟨u₀, hu₀, h⟩ := C89_shape hs hd
  refine ⟨u₀, hu₀, fun u h0 hu A s' V' hc hV' c hcell k i hk hi => ?_⟩
  obtain ⟨-, -, h3⟩ := h u h0 hu A s' hc
  obtain ⟨j, -, -, hl⟩ := hb.corner_list hcell
  rw [cellFunctions_corners hs, ← hl] at hk
  have hv : (c.sub 0)[k]? = some (c.sub 0)[k] := List.getElem?_eq_getElem hk
  have hp : pt (c.sub 0)[k] < s.points.length := by
    refine List.mem_range.mp (hb.points.mem_iff.mp (List.mem_map_of_mem (List.mem_range.mpr ?_)))
    exact hb.wf.sub_lt c hcell 0 (by decide) _ (List.getElem_mem hk)
  obtain ⟨a, b, b1, b2, b3, b4, b5⟩ := h3 _ hp
  obtain ⟨v1, v2, v3⟩ := hV c hcell k _ b hv b2
  obtain ⟨w1, w2, w3⟩ := hV' c hcell k _ a hv b1
  match i, hi with
  | 0, _ => rw [v1, w1]; exact b3
  | 1, _ => rw [v2, w2]; exact b4
  | 2, _ => rw [v3, w3]; exact b5

theorem Geometry.NearAt.mono {e e' : ℝ} (h : e ≤ e') {G G' : Geometry ℝ} {c : Nat} {x x' : List ℝ}
    (hG : Geometry.NearAt e G G' c x x') : Geometry.NearAt e' G G' c x x' :=
  ⟨fun i hi => (hG.point i hi).trans (by gcongr), fun i hi => (hG.normal i hi).trans (by gcongr),
    fun i hi => (hG.jacobian i hi).trans (by gcongr), hG.jdet.trans (by gcongr)⟩

theorem LibraryData.mono {T : Type} [NormedField T] {e e' : ℝ} (h : e ≤ e') {D : OperatorData T} {K : MathKernel ℝ T}
    {V' : Nat → Nat → Nat → ℝ} {BT BR : Basis ℝ T} {Q' Q : Quadrature ℝ} {test trial : FunctionSpace} {dimT dimR : Nat}
    (hD : LibraryData e D K t V' BT BR Q' Q test trial dimT dimR) : LibraryData e' D K t V' BT BR Q' Q test trial dimT dimR :=
  ⟨⟨hD.weights.regular.imp fun p p' k => k.trans (by gcongr), fun con hcon =>
      (hD.weights.singular con hcon).imp fun p p' k => k.trans (by gcongr)⟩,
    fun c hc x x' hx => (hD.testGeometry c hc x x' hx).mono h, fun c hc x x' hx => (hD.trialGeometry c hc x x' hx).mono h,
    fun x x' hx a i ha hi => (hD.testBasis x x' hx a i ha hi).trans (by gcongr),
    fun x x' hx a i ha hi => (hD.trialBasis x x' hx a i ha hi).trans (by gcongr),
    fun c hc c' hc' x y x' y' hx i hi => (hD.kernel c hc c' hc' x y x' y' hx i hi).trans (by gcongr)⟩

variable {famT famR fam : CellType → ElementDofs} {kT kR kk : Nat → Nat} {Q : Nat → Quadrature ℝ} {W : MathIntegrand ℝ}
  {k m : Nat}

/-- With enough digits, and small errors of the libraries, the data are accurate. -/
theorem computed_float {T : Type} [RCLike T] {K : MathKernel ℝ T} (hK : ContinuousKernel K) (hs : LibraryShape lev t s)
    (hb : Built s t g pt cl) (hV : HasCorners s g pt V) (hT : (famT t).Uniform t kT) (hR : (famR t).Uniform t kR)
    {fsT fsR : FunctionSpace} (hmT : FunctionSpace.new 0 1 g famT = .done fsT)
    (hmR : FunctionSpace.new 0 1 g famR = .done fsR)
    (BT BR : Basis ℝ T) {F' : MathIntegrand T} {Q : Quadrature ℝ} (hQ : SeparateNodes g t V Q) {e : ℝ} (he : 0 < e) :
    ∃ d > 0, ∀ u e', 0 ≤ u → u ≤ d → 0 ≤ e' → e' ≤ d → ∀ (A : Arith ℝ u) (B : Arith T u) s' V' env asm trial test D Q' o F,
      ComputedShape A lev t s s' → HasCorners s'.values g pt V' →
      LibraryAssembly A B e' K V' BT BR Q g t famT famR F' W k env asm trial test D Q' o F →
      FloatAssembly A B e (shapeData K t V BT BR) (shapeData K t V BT BR).scales Q g t famT famR F' W k env asm trial test D
        Q' o F := by
  obtain ⟨d1, hd1, h1⟩ := C89_data hK hs hb hV (test := fsT) (trial := fsR) (shape_space hb hT hmT).2 (shape_space hb hR hmR).2
    BT BR (famT t).dim (famR t).dim hQ he
  obtain ⟨d2, hd2, h2⟩ := computed_vertices hs hb hV hd1
  refine ⟨min d1 d2, lt_min hd1 hd2, fun u e' u0 hu e0 he' A B s' V' env asm trial test D Q' o F hc hV' h => ?_⟩
  obtain rfl : test.fs = fsT := Prog.done.inj (h.testMade.symm.trans hmT)
  obtain rfl : trial.fs = fsR := Prog.done.inj (h.trialMade.symm.trans hmR)
  have hn := h2 u u0 (hu.trans (min_le_right _ _)) A s' V' hc hV'
  exact ⟨h.cast, h.testMade, h.trialMade, h.sameGeometry, h.testGeometry, h.trialGeometry, h.testBasis, h.trialBasis,
    h.regular, h.singular, h.operator, h.rounded, h.batch, h1 d1 hd1.le le_rfl D V' Q' hn
      (h.accurate.mono (he'.trans (min_le_left _ _)))⟩

theorem computed_accuracy {T : Type} [RCLike T] {K : MathKernel ℝ T} (hK : ContinuousKernel K) {F' : MathIntegrand T}
    (hF : OperatorFormula F') (hF' : Factors F' W m) {BT BR : Basis ℝ T}
    (hs : LibraryShape lev t s) (hb : Built s t g pt cl) (hV : HasCorners s g pt V)
    (hT : (famT t).Uniform t kT) (hR : (famR t).Uniform t kR) {fsT fsR : FunctionSpace}
    (hmT : FunctionSpace.new 0 1 g famT = .done fsT) (hmR : FunctionSpace.new 0 1 g famR = .done fsR)
    (hBT : ContinuousBasis BT t (famT t).dim) (hBR : ContinuousBasis BR t (famR t).dim)
    (hQ : ∀ n, SeparateNodes g t V (Q n)) (hrule : RulesConverge (refCell t) fun n => (Q n).regular t)
    (hpair : ∀ c ∈ g.entityIter 2, ∀ c' ∈ g.entityIter 2, c.Touches c' → ∀ a b, a < (famT t).dim → b < (famR t).dim →
      PairRulesConverge (refCell t) (fun n => (Q n).singular t t (connectivity c c'))
        (pairIntegrand F' K (vertexGeometry (cellFunctions t) V) (vertexGeometry (cellFunctions t) V) BT BR t
          c.localIndex c'.localIndex a b)) {ε : ℝ} (hε : 0 < ε) :
    ∃ n₀, ∀ n ≥ n₀, ∃ δ > 0, ∀ u e, 0 ≤ u → u ≤ δ → 0 ≤ e → e ≤ δ →
      ∀ (A : Arith ℝ u) (B : Arith T u) s' V' env asm trial test D Q' o F,
      ComputedShape A lev t s s' → HasCorners s'.values g pt V' →
      LibraryAssembly A B e K V' BT BR (Q n) g t famT famR F' W k env asm trial test D Q' o F →
      ∃ M : List (Fl B), (∀ out, Assemble env asm trial test out ↔ out = some M) ∧
        M.length = fsT.globalSize * fsR.globalSize ∧
        ∀ i j, i < fsT.globalSize → j < fsR.globalSize →
          ‖(values M).getD (i + fsT.globalSize * j) 0 - doubleSum fsT fsR (pairIntegral F' K
            (vertexGeometry (cellFunctions t) V) (vertexGeometry (cellFunctions t) V) BT BR t) i j‖ ≤ ε := by
  obtain ⟨n₀, hn₀⟩ := shape_accuracy (S := (shapeData K t V BT BR).scales) (k := k) hK hF hF' hs hb hV hT hR hmT hmR hBT hBR
    hrule hpair hε
  refine ⟨n₀, fun n hn => ?_⟩
  obtain ⟨d1, hd1, h1⟩ := hn₀ n hn
  obtain ⟨d2, hd2, h2⟩ := computed_float (W := W) (k := k) (F' := F') hK hs hb hV hT hR hmT hmR BT BR (hQ n) hd1
  refine ⟨min d1 d2, lt_min hd1 hd2, fun u e u0 hu e0 he A B s' V' env asm trial test D Q' o F hc hV' h => ?_⟩
  exact h1 u d1 u0 (hu.trans (min_le_left _ _)) hd1.le le_rfl A B env asm trial test D Q' o F
    (h2 u e u0 (hu.trans (min_le_right _ _)) e0 (he.trans (min_le_right _ _)) A B s' V' env asm trial test D Q' o F hc hV' h)

/-- **C89.** From the shape to the matrix in floating point arithmetic: the points of a sphere or a screen are computed, given
to the grid library, and a Laplace operator is assembled from what the libraries return for them. For every tolerance there
is a number of quadrature points from which on all entries are within the tolerance of the Galerkin matrix on the exact
sphere or screen, if the arithmetic and the libraries are accurate enough. -/
theorem C89_laplace {F' : MathIntegrand ℝ}
    (hF : OperatorFormula F') (hF' : Factors F' W m) {BT BR : Basis ℝ ℝ}
    (hs : LibraryShape lev t s) (hb : Built s t g pt cl) (hV : HasCorners s g pt V)
    (hT : (famT t).Uniform t kT) (hR : (famR t).Uniform t kR) {fsT fsR : FunctionSpace}
    (hmT : FunctionSpace.new 0 1 g famT = .done fsT) (hmR : FunctionSpace.new 0 1 g famR = .done fsR)
    (hBT : ContinuousBasis BT t (famT t).dim) (hBR : ContinuousBasis BR t (famR t).dim)
    (hQ : ∀ n, SeparateNodes g t V (Q n)) (hrule : RulesConverge (refCell t) fun n => (Q n).regular t)
    (hpair : ∀ c ∈ g.entityIter 2, ∀ c' ∈ g.entityIter 2, c.Touches c' → ∀ a b, a < (famT t).dim → b < (famR t).dim →
      PairRulesConverge (refCell t) (fun n => (Q n).singular t t (connectivity c c'))
        (pairIntegrand F' laplaceGreen (vertexGeometry (cellFunctions t) V) (vertexGeometry (cellFunctions t) V) BT BR t
          c.localIndex c'.localIndex a b)) {ε : ℝ} (hε : 0 < ε) :
    ∃ n₀, ∀ n ≥ n₀, ∃ δ > 0, ∀ u e, 0 ≤ u → u ≤ δ → 0 ≤ e → e ≤ δ →
      ∀ (A : Arith ℝ u) (B : Arith ℝ u) s' V' env asm trial test D Q' o F,
      ComputedShape A lev t s s' → HasCorners s'.values g pt V' →
      LibraryAssembly A B e laplaceGreen V' BT BR (Q n) g t famT famR F' W k env asm trial test D Q' o F →
      ∃ M : List (Fl B), (∀ out, Assemble env asm trial test out ↔ out = some M) ∧
        M.length = fsT.globalSize * fsR.globalSize ∧
        ∀ i j, i < fsT.globalSize → j < fsR.globalSize →
          ‖(values M).getD (i + fsT.globalSize * j) 0 - doubleSum fsT fsR (pairIntegral F' laplaceGreen
            (vertexGeometry (cellFunctions t) V) (vertexGeometry (cellFunctions t) V) BT BR t) i j‖ ≤ ε :=
  computed_accuracy laplaceGreen_continuous hF hF' hs hb hV hT hR hmT hmR hBT hBR hQ hrule hpair hε

/-- **C89.** The same for the Helmholtz operators. -/
theorem C89_helmholtz {w : ℝ} {F' : MathIntegrand ℂ}
    (hF : OperatorFormula F') (hF' : Factors F' W m) {BT BR : Basis ℝ ℂ}
    (hs : LibraryShape lev t s) (hb : Built s t g pt cl) (hV : HasCorners s g pt V)
    (hT : (famT t).Uniform t kT) (hR : (famR t).Uniform t kR) {fsT fsR : FunctionSpace}
    (hmT : FunctionSpace.new 0 1 g famT = .done fsT) (hmR : FunctionSpace.new 0 1 g famR = .done fsR)
    (hBT : ContinuousBasis BT t (famT t).dim) (hBR : ContinuousBasis BR t (famR t).dim)
    (hQ : ∀ n, SeparateNodes g t V (Q n)) (hrule : RulesConverge (refCell t) fun n => (Q n).regular t)
    (hpair : ∀ c ∈ g.entityIter 2, ∀ c' ∈ g.entityIter 2, c.Touches c' → ∀ a b, a < (famT t).dim → b < (famR t).dim →
      PairRulesConverge (refCell t) (fun n => (Q n).singular t t (connectivity c c'))
        (pairIntegrand F' (helmholtzGreen w) (vertexGeometry (cellFunctions t) V) (vertexGeometry (cellFunctions t) V) BT BR t
          c.localIndex c'.localIndex a b)) {ε : ℝ} (hε : 0 < ε) :
    ∃ n₀, ∀ n ≥ n₀, ∃ δ > 0, ∀ u e, 0 ≤ u → u ≤ δ → 0 ≤ e → e ≤ δ →
      ∀ (A : Arith ℝ u) (B : Arith ℂ u) s' V' env asm trial test D Q' o F,
      ComputedShape A lev t s s' → HasCorners s'.values g pt V' →
      LibraryAssembly A B e (helmholtzGreen w) V' BT BR (Q n) g t famT famR F' W k env asm trial test D Q' o F →
      ∃ M : List (Fl B), (∀ out, Assemble env asm trial test out ↔ out = some M) ∧
        M.length = fsT.globalSize * fsR.globalSize ∧
        ∀ i j, i < fsT.globalSize → j < fsR.globalSize →
          ‖(values M).getD (i + fsT.globalSize * j) 0 - doubleSum fsT fsR (pairIntegral F' (helmholtzGreen w)
            (vertexGeometry (cellFunctions t) V) (vertexGeometry (cellFunctions t) V) BT BR t) i j‖ ≤ ε :=
  computed_accuracy (helmholtzGreen_continuous w) hF hF' hs hb hV hT hR hmT hmR hBT hBR hQ hrule hpair hε

/-- **C89.** From the shape to the solution of the single layer system. -/
theorem C89_solution {BB : Basis ℝ ℝ}
    (hs : LibraryShape lev t s) (hb : Built s t g pt cl) (hV : HasCorners s g pt V)
    (hf : (fam t).Uniform t kk) {fs : FunctionSpace} (hm : FunctionSpace.new 0 1 g fam = .done fs)
    (hB : ContinuousBasis BB t (fam t).dim) (hi : IndependentBasis BB t (fam t).dim)
    (hQ : ∀ n, SeparateNodes g t V (Q n)) (hrule : RulesConverge (refCell t) fun n => (Q n).regular t)
    (hpair : ∀ c ∈ g.entityIter 2, ∀ c' ∈ g.entityIter 2, c.Touches c' → ∀ a b, a < (fam t).dim → b < (fam t).dim →
      PairRulesConverge (refCell t) (fun n => (Q n).singular t t (connectivity c c'))
        (pairIntegrand slF laplaceGreen (vertexGeometry (cellFunctions t) V) (vertexGeometry (cellFunctions t) V) BB BB t
          c.localIndex c'.localIndex a b)) (b : Nat → ℝ) :
    ∃ x : Nat → ℝ, (∀ i, i < fs.globalSize → ((List.range fs.globalSize).map fun j =>
        doubleSum fs fs (pairIntegral slF laplaceGreen (vertexGeometry (cellFunctions t) V)
          (vertexGeometry (cellFunctions t) V) BB BB t) i j * x j).sum = b i) ∧
    ∀ ε > 0, ∃ n₀, ∀ n ≥ n₀, ∃ δ > 0, ∀ u e, 0 ≤ u → u ≤ δ → 0 ≤ e → e ≤ δ →
      ∀ (A : Arith ℝ u) (B : Arith ℝ u) s' V' env asm trial test D Q' o F,
      ComputedShape A lev t s s' → HasCorners s'.values g pt V' →
      LibraryAssembly A B e laplaceGreen V' BB BB (Q n) g t fam fam slF slF 2 env asm trial test D Q' o F →
      ∃ M : List (Fl B), (∀ out, Assemble env asm trial test out ↔ out = some M) ∧
        ∀ b' : Nat → ℝ, (∀ i, i < fs.globalSize → |b' i - b i| ≤ δ) →
          (∃ y, Solves (values M) fs.globalSize y b') ∧
          ∀ y, Solves (values M) fs.globalSize y b' → ∀ i, i < fs.globalSize → |y i - x i| ≤ ε := by
  obtain ⟨x, hx, hlim⟩ := C87_solution (S := (shapeData laplaceGreen t V BB BB).scales) hs hb hV hf hm hB hi hrule hpair b
  refine ⟨x, hx, fun ε hε => ?_⟩
  obtain ⟨n₀, hn₀⟩ := hlim ε hε
  refine ⟨n₀, fun n hn => ?_⟩
  obtain ⟨d1, hd1, h1⟩ := hn₀ n hn
  obtain ⟨d2, hd2, h2⟩ := computed_float (W := slF) (k := 2) (F' := slF) laplaceGreen_continuous hs hb hV hf hf hm hm BB BB
    (hQ n) hd1
  refine ⟨min d1 d2, lt_min hd1 hd2, fun u e u0 hu e0 he A B s' V' env asm trial test D Q' o F hc hV' h => ?_⟩
  obtain ⟨M, m1, m2⟩ := h1 u d1 u0 (hu.trans (min_le_left _ _)) hd1.le le_rfl A B env asm trial test D Q' o F
    (h2 u e u0 (hu.trans (min_le_right _ _)) e0 (he.trans (min_le_right _ _)) A B s' V' env asm trial test D Q' o F hc hV' h)
  exact ⟨M, m1, fun b' hb' => m2 b' fun i hi => (hb' i hi).trans (min_le_left _ _)⟩

/-- **C89.** The grids that can be built from the computed shape are the grids that can be built from the exact one. -/
theorem C89_grid (hs : LibraryShape lev t s) : ∃ u₀ > 0, ∀ u, 0 ≤ u → u ≤ u₀ → ∀ (A : Arith ℝ u) s',
    ComputedShape A lev t s s' → (Built s' t g pt cl ↔ Built s t g pt cl) := by
  obtain ⟨u₀, hu₀, h⟩ := C89_shape hs one_pos
  refine ⟨u₀, hu₀, fun u h0 hu A s' hc => ?_⟩
  obtain ⟨h1, h2, -⟩ := h u h0 hu A s' hc
  exact ⟨fun hb => hb.same h1.symm h2.symm, fun hb => hb.same h1 h2⟩

end
/-! ### C89: the hypotheses can be met -/

namespace Examples

/-- Two flat cells have common points only for a null set of pairs of reference points. -/
theorem common_null {G : Geometry ℝ} {c c' : Nat} (h : FlatCell G c) (h' : FlatCell G c') :
    volume {z : (ℝ × ℝ) × (ℝ × ℝ) | G.coords c (pointList z.1) = G.coords c' (pointList z.2)} = 0 := by
  obtain ⟨P, A, B, N, U, W, -, hp, -⟩ := h
  obtain ⟨P', A', B', N', U', W', hf, hp', -⟩ := h'
  have e : {z : (ℝ × ℝ) × (ℝ × ℝ) | G.coords c (pointList z.1) = G.coords c' (pointList z.2)} =
      {z | flatPoint P A B z.1 0 = flatPoint P' A' B' z.2 0 ∧ flatPoint P A B z.1 1 = flatPoint P' A' B' z.2 1 ∧
        flatPoint P A B z.1 2 = flatPoint P' A' B' z.2 2} := by
    ext z
    show [G.point c (pointList z.1) 0, G.point c (pointList z.1) 1, G.point c (pointList z.1) 2] =
      [G.point c' (pointList z.2) 0, G.point c' (pointList z.2) 1, G.point c' (pointList z.2) 2] ↔ _
    rw [hp _ 0 (by omega), hp _ 1 (by omega), hp _ 2 (by omega), hp' _ 0 (by omega), hp' _ 1 (by omega), hp' _ 2 (by omega)]
    simp
  have hcl : IsClosed {z : (ℝ × ℝ) × (ℝ × ℝ) | flatPoint P A B z.1 0 = flatPoint P' A' B' z.2 0 ∧
      flatPoint P A B z.1 1 = flatPoint P' A' B' z.2 1 ∧ flatPoint P A B z.1 2 = flatPoint P' A' B' z.2 2} := by
    refine IsClosed.and ?_ (IsClosed.and ?_ ?_) <;>
    · unfold flatPoint
      exact isClosed_eq (by fun_prop) (by fun_prop)
  rw [e, Measure.volume_eq_prod, Measure.measure_prod_null hcl.measurableSet]
  refine Eventually.of_forall fun x => ?_
  refine Set.Subsingleton.measure_zero ?_ _
  rintro y ⟨y0, y1, y2⟩ w ⟨w0, w1, w2⟩
  have k0 := y0.symm.trans w0
  have k1 := y1.symm.trans w1
  have k2 := y2.symm.trans w2
  simp only [flatPoint] at k0 k1 k2
  have uA := hf.uA; have uB := hf.uB; have wA := hf.wA; have wB := hf.wB
  simp only [dot3] at uA uB wA wB
  ext
  · linear_combination U' 0 * k0 + U' 1 * k1 + U' 2 * k2 - (y.1 - w.1) * uA - (y.2 - w.2) * uB
  · linear_combination W' 0 * k0 + W' 1 * k1 + W' 2 * k2 - (y.1 - w.1) * wA - (y.2 - w.2) * wB

/-- A rule that is exact for finitely many functions, with nodes outside of a null set. -/
theorem exact_rule_avoiding {S : Set (ℝ × ℝ)} {N : Set ((ℝ × ℝ) × (ℝ × ℝ))} (hN : volume N = 0)
    (L : List (List ℝ → List ℝ → ℝ))
    (hL : ∀ f ∈ L, IntegrableOn (fun z : (ℝ × ℝ) × (ℝ × ℝ) => f (pointList z.1) (pointList z.2)) (S ×ˢ S)) :
    ∃ rule : List (List ℝ × List ℝ × ℝ), (∀ p ∈ rule, ∃ z ∉ N, p.1 = pointList z.1 ∧ p.2.1 = pointList z.2) ∧
      ∀ f ∈ L, (rule.map fun p => p.2.2 * f p.1 p.2.1).sum =
        ∫ x in S, ∫ y in S, f (pointList x) (pointList y) := by
  have hae : (S ×ˢ S \ N : Set ((ℝ × ℝ) × (ℝ × ℝ))) =ᵐ[volume] (S ×ˢ S : Set ((ℝ × ℝ) × (ℝ × ℝ))) := sdiff_null_ae_eq_self hN
  obtain ⟨rule, h0, h⟩ := span_rule (fun k : Fin L.length => fun z : (ℝ × ℝ) × (ℝ × ℝ) =>
    (L[k]) (pointList z.1) (pointList z.2)) (integral_mem_span (S := S ×ˢ S \ N) _ fun k =>
      (hL _ (List.getElem_mem _)).mono_set Set.sdiff_subset)
  refine ⟨rule.map fun p => (pointList p.1.1, pointList p.1.2, p.2), ?_, ?_⟩
  · intro p hp
    obtain ⟨q, hq, rfl⟩ := List.mem_map.mp hp
    exact ⟨q.1, (h0 q hq).2, rfl, rfl⟩
  · intro f hf
    obtain ⟨k, hk, rfl⟩ := List.getElem_of_mem hf
    have := h ⟨k, hk⟩
    rw [List.map_map]
    refine this.trans ?_
    rw [setIntegral_congr_set hae]
    have h2 := hL _ (List.getElem_mem hk)
    rw [Measure.volume_eq_prod] at h2 ⊢
    exact setIntegral_prod _ h2

noncomputable def digitsSqrt (p : Nat) (x : Fl (digits p)) : Fl (digits p) := roundTo p (Real.sqrt x.val)

theorem digitsSqrt_rounded (p : Nat) : RoundedSqrt (digits p) (digitsSqrt p) :=
  ⟨fun x _ => by
    have := roundTo_err p (Real.sqrt x.val)
    rwa [Real.norm_eq_abs, Real.norm_eq_abs, abs_of_nonneg (Real.sqrt_nonneg _)] at this⟩

/-- Assembly on a sphere whose vertices were computed with `p + 1` binary digits, with a kernel and weights that are
rounded. -/
theorem sphere_library {g : Grid} {V' : Nat → Nat → Nat → ℝ} {rule : List (List ℝ × List ℝ × ℝ)} {fs : FunctionSpace} {p : Nat}
    {asm : Assembler (Fl (digits p)) (Fl (digits p))} {F' : MathIntegrand ℝ} {F : MathIntegrand (Fl (digits p))}
    {W : MathIntegrand ℝ} {k : Nat} (n : Nat)
    (hm : FunctionSpace.new 0 1 g p1 = .done fs) (hrule : ∀ q ∈ rule, q.1.length = 2 ∧ q.2.1.length = 2)
    (ho : OperatorWith (sphereEnv rule p).cast (latticeOptions n) (roundedGreen p) asm F)
    (hr : Rounded (digits p) (digits p) F F' W k) :
    LibraryAssembly (digits p) (digits p) (2⁻¹ ^ (p + 1)) laplaceGreen V' realP1 realP1 (pairRules rule n) g .triangle p1 p1
      F' W k (sphereEnv rule p) asm (digitsSpace p fs V') (digitsSpace p fs V')
      { shapeData laplaceGreen .triangle V' realP1 realP1 with kernel := roundedGreen p }
      (roundedRules p (pairRules rule n)) (latticeOptions n) F where
  cast := rfl
  testMade := hm
  trialMade := hm
  sameGeometry := rfl
  testGeometry := spaceOf_geometry fs p1 _ realP1
  trialGeometry := spaceOf_geometry fs p1 _ realP1
  testBasis := spaceOf_tabulate fs p1 _ realP1
  trialBasis := spaceOf_tabulate fs p1 _ realP1
  regular := rounded_regular (pair_regular rule n) p
  singular := rounded_singular (pair_singular hrule n) p
  operator := ho
  rounded := hr
  batch := by show 0 < 128; decide
  accurate := by
    have he : (0 : ℝ) ≤ 2⁻¹ ^ (p + 1) := by positivity
    have hz : ∀ x : ℝ, 0 ≤ 2⁻¹ ^ (p + 1) * (1 + |x|) := fun x => by positivity
    have near : ∀ (G : Geometry ℝ) c x, Geometry.NearAt (2⁻¹ ^ (p + 1)) G G c x x := fun G c x =>
      ⟨fun i _ => by rw [sub_self, abs_zero]; exact hz _, fun i _ => by rw [sub_self, abs_zero]; exact hz _,
        fun i _ => by rw [sub_self, abs_zero]; exact hz _, by rw [sub_self, abs_zero]; exact hz _⟩
    exact {
      weights := rounded_weights p _ _
      testGeometry := fun c _ x x' hx => by
        obtain rfl := rounded_nodes hx
        exact near _ _ _
      trialGeometry := fun c _ x x' hx => by
        obtain rfl := rounded_nodes hx
        exact near _ _ _
      testBasis := fun x x' hx a i _ _ => by
        obtain rfl := rounded_nodes hx
        simp only [shapeData, sub_self, norm_zero]
        exact hz _
      trialBasis := fun x x' hx a i _ _ => by
        obtain rfl := rounded_nodes hx
        simp only [shapeData, sub_self, norm_zero]
        exact hz _
      kernel := fun c _ c' _ x y x' y' hx i _ => (roundTo_err p _).trans
        (mul_le_mul_of_nonneg_left (le_add_of_nonneg_left zero_le_one) he) }

/-- C89: on spheres of all levels, from the points of the sphere to the solution of the single layer system. -/
example (lev : Nat) : ∃ (rule : List (List ℝ × List ℝ × ℝ)) (s : Shape ℝ) (g : Grid) (pt cl : Nat → Nat)
    (V : Nat → Nat → Nat → ℝ) (fs : FunctionSpace),
    realSphere lev = some s ∧ Built s .triangle g pt cl ∧ HasCorners s g pt V ∧
    FunctionSpace.new 0 1 g p1 = .done fs ∧ fs.globalSize = 4 ^ (lev + 1) + 2 ∧ ∀ b : Nat → ℝ, ∃ x : Nat → ℝ,
      (∀ i, i < fs.globalSize → ((List.range fs.globalSize).map fun j => doubleSum fs fs (pairIntegral slF laplaceGreen
        (vertexGeometry triangleFunctions V) (vertexGeometry triangleFunctions V) realP1 realP1 .triangle) i j * x j).sum =
          b i) ∧
      ∀ ε > 0, ∃ n₀, ∀ n ≥ n₀, ∃ p₀, ∀ p ≥ p₀, ∃ s' V', regularSphere halfFl (digitsSqrt p) lev = some s' ∧
        HasCorners s'.values g pt V' ∧ ∃ M : List (Fl (digits p)),
        (∀ out, Assemble (sphereEnv rule p) (Laplace.singleLayer (T := Fl (digits p)) (R := Fl (digits p))
          (kernelOf (roundedGreen p)) (latticeOptions n)) (digitsSpace p fs V') (digitsSpace p fs V') out ↔ out = some M) ∧
        (∃ y, Solves (values M) fs.globalSize y b) ∧
          ∀ y, Solves (values M) fs.globalSize y b → ∀ i, i < fs.globalSize → |y i - x i| ≤ ε := by
  obtain ⟨s, hs, -⟩ := C30_sizes (1 / 2 : ℝ) Real.sqrt lev
  have hl : LibraryShape lev .triangle s := .inl ⟨hs, rfl⟩
  obtain ⟨-, -, -, ⟨g, pt, cl, hb⟩, -⟩ := C47_conforming _ _ _ hl
  obtain ⟨⟨V, hV⟩, -⟩ := C79_surface hl hb
  have hu := p1_uniform .triangle (by decide)
  obtain ⟨fs, h1, h2⟩ := C46_sphere _ _ hs hb hu
  obtain ⟨rule, r1, r2⟩ := exact_rule_avoiding (S := refCell .triangle)
    (N := ⋃ c ∈ {c | c ∈ g.entityIter 2}, ⋃ c' ∈ {c | c ∈ g.entityIter 2}, {z |
      (vertexGeometry triangleFunctions V).coords c.localIndex (pointList z.1) =
        (vertexGeometry triangleFunctions V).coords c'.localIndex (pointList z.2)})
    ((measure_biUnion_null_iff (g.entityIter 2).finite_toSet.countable).mpr fun c hc =>
      (measure_biUnion_null_iff (g.entityIter 2).finite_toSet.countable).mpr fun c' hc' =>
        common_null (shape_flat hl hb hV hc) (shape_flat hl hb hV hc'))
    ((g.entityIter 2).flatMap fun c => (g.entityIter 2).flatMap fun c' => (List.range 3).flatMap fun a =>
      (List.range 3).map fun b => pairIntegrand slF laplaceGreen (vertexGeometry triangleFunctions V)
        (vertexGeometry triangleFunctions V) realP1 realP1 .triangle c.localIndex c'.localIndex a b) (by
      intro f hf
      simp only [List.mem_flatMap, List.mem_map, List.mem_range] at hf
      obtain ⟨c, hc, c', hc', a, ha, b, hb', rfl⟩ := hf
      exact shape_integrable laplaceGreen_greenLike .singleLayer hl hb hV (realP1_continuous .triangle)
        (realP1_continuous .triangle) hc hc' ha hb')
  have r0 : ∀ q ∈ rule, q.1.length = 2 ∧ q.2.1.length = 2 := fun q hq => by
    obtain ⟨z, -, e1, e2⟩ := r1 q hq
    rw [e1, e2]
    exact ⟨rfl, rfl⟩
  have hQ : ∀ n, SeparateNodes g .triangle V (pairRules rule n) := fun n => by
    refine ⟨fun c hc c' hc' _ q hq e => ?_, triangleRule_converges.nodes n⟩
    obtain ⟨z, hz, e1, e2⟩ := r1 q hq
    rw [e1, e2] at e
    exact hz (Set.mem_biUnion hc (Set.mem_biUnion hc' e))
  refine ⟨rule, s, g, pt, cl, V, fs, hs, hb, hV, h1, by simpa using h2, fun b => ?_⟩
  obtain ⟨x, hx, hlim⟩ := C89_solution (Q := pairRules rule)
    hl hb hV hu h1 (realP1_continuous _) realP1_independent hQ triangleRule_converges
    (fun c hc c' hc' _ a b ha hb' => by
      have := r2 _ (List.mem_flatMap.mpr ⟨c, hc, List.mem_flatMap.mpr ⟨c', hc', List.mem_flatMap.mpr
        ⟨a, List.mem_range.mpr ha, List.mem_map.mpr ⟨b, List.mem_range.mpr hb', rfl⟩⟩⟩⟩)
      show Tendsto (fun _ => (rule.map fun p => p.2.2 * _).sum) atTop _
      exact tendsto_const_nhds.congr fun _ => this.symm) b
  refine ⟨x, hx, fun ε hε => ?_⟩
  obtain ⟨n₀, hn₀⟩ := hlim ε hε
  refine ⟨n₀, fun n hn => ?_⟩
  obtain ⟨δ₀, hδ₀, hd⟩ := hn₀ n hn
  obtain ⟨u₀, hu₀, hbuilt⟩ := C89_grid (g := g) (pt := pt) (cl := cl) hl
  obtain ⟨p₀, hp₀⟩ := exists_pow_lt_of_lt_one (lt_min hδ₀ hu₀) (show (2⁻¹ : ℝ) < 1 by norm_num)
  have hle : ∀ p ≥ p₀, (2⁻¹ : ℝ) ^ (p + 1) ≤ min δ₀ u₀ := fun p hp =>
    (pow_le_pow_of_le_one (by norm_num) (by norm_num) (by omega)).trans hp₀.le
  refine ⟨p₀, fun p hp => ?_⟩
  obtain ⟨s', hs', -⟩ := C30_sizes (halfFl : Fl (digits p)) (digitsSqrt p) lev
  have hc : ComputedShape (digits p) lev .triangle s s' := .inl ⟨rfl, hs, digitsSqrt p, digitsSqrt_rounded p, hs'⟩
  have hb2 : Built s' .triangle g pt cl :=
    (hbuilt _ (by positivity) ((hle p hp).trans (min_le_right _ _)) _ s' hc).mpr hb
  obtain ⟨V', hV'⟩ := (hb2.same (s' := s'.values) rfl (List.length_map _)).exists_corners
  obtain ⟨M, m1, m2⟩ := hd _ _ (by positivity) ((hle p hp).trans (min_le_left _ _)) (by positivity)
    ((hle p hp).trans (min_le_left _ _)) _ _ s' V' _ _ _ _ _ _ _ _ hc hV'
    (sphere_library (p := p) n h1 r0
      (.laplaceSingleLayer (R := Fl (digits p)) (T := Fl (digits p)) (kernelOf_computes (roundedGreen p) _)) .singleLayer)
  exact ⟨s', V', hs', hV', M, m1, m2 b fun i _ => by rw [sub_self, abs_zero]; exact hδ₀.le⟩

end Examples
end Bempp
