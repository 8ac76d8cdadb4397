import Verif.Spec.Assembly
import Mathlib.Data.List.Basic
/-
The cell-pair assemblers compute the quadrature sums of the specification.
-/
namespace Bempp

variable {R T : Type}

/-! ### Loops over lists with positions -/

theorem foldlM_zipIdx_eq {ν ω σ : Type} (g : ν → ω) (f : σ → ω × Nat → Option σ) (h : σ → ν → σ)
    (ns : List ν) (k : Nat) (s : σ)
    (H : ∀ (i : Nat) (n : ν) (s : σ), ns[i]? = some n → f s (g n, k + i) = some (h s n)) :
    ((ns.map g).zipIdx k).foldlM f s = some (ns.foldl h s) := by
  induction ns generalizing k s with
  | nil => rfl
  | cons n ns ih =>
    rw [List.map_cons, List.zipIdx_cons, List.foldlM_cons]
    have h0 := H 0 n s rfl
    simp only [Nat.add_zero] at h0
    rw [h0]
    simp only [Option.bind_eq_bind, Option.bind_some, List.foldl_cons]
    apply ih
    intro i m s hi
    have := H (i + 1) m s (by simpa using hi)
    rw [← this]
    congr 2
    omega

theorem mapM_zipIdx_eq {α β : Type} (f : α × Nat → Option β) (h : Nat → β) (l : List α) (k : Nat)
    (H : ∀ (i : Nat) (x : α), l[i]? = some x → f (x, k + i) = some (h (k + i))) :
    (l.zipIdx k).mapM f = some ((List.range l.length).map fun i => h (k + i)) := by
  induction l generalizing k with
  | nil => rfl
  | cons x l ih =>
    rw [List.zipIdx_cons, List.mapM_cons]
    have h0 := H 0 x rfl
    simp only [Nat.add_zero] at h0
    rw [h0, ih (k + 1) (by
      intro i y hi
      have := H (i + 1) y (by simpa using hi)
      rw [show k + 1 + i = k + (i + 1) by omega]
      exact this)]
    simp only [Option.pure_def, Option.bind_eq_bind, Option.bind_some, List.length_cons,
      List.range_succ_eq_map, List.map_cons, List.map_map, Nat.add_zero]
    congr 2
    apply List.map_congr_left
    intro i _
    simp only [Function.comp]
    congr 1
    omega

/-- A local matrix is a table of its entries, whatever the buffer contained. -/
theorem mapM_matrix {α β : Type} (f : Nat → Nat → Option β) (h : Nat → Nat → β) (n0 n1 : Nat)
    (m : List (List α)) (hm : Shape2 n0 n1 m)
    (H : ∀ a b, a < n0 → b < n1 → f a b = some (h a b)) :
    (m.zipIdx.mapM fun (col : List α × Nat) => col.1.zipIdx.mapM fun (e : α × Nat) => f e.2 col.2) =
      some ((List.range n1).map fun b => (List.range n0).map fun a => h a b) := by
  rw [mapM_zipIdx_eq (h := fun b => (List.range n0).map fun a => h a b)]
  · simp [hm.1]
  · intro b col hb
    have hcol := hm.2 col (List.mem_of_getElem? hb)
    have hb' := (List.getElem?_eq_some_iff.mp hb).1
    rw [hm.1] at hb'
    rw [mapM_zipIdx_eq (h := fun a => h a (0 + b))]
    · simp [hcol]
    · intro a x ha
      have ha' := (List.getElem?_eq_some_iff.mp ha).1
      rw [hcol] at ha'
      simpa using H a b ha' hb'

theorem shape2_map {α β : Type} (n : Nat) (l : List α) (f : α → Nat → β) :
    Shape2 n l.length (l.map fun x => (List.range n).map (f x)) := by
  refine ⟨by simp, ?_⟩
  intro c hc
  obtain ⟨x, _, rfl⟩ := List.mem_map.mp hc
  simp

theorem shape2_matrix {β : Type} (n0 n1 : Nat) (h : Nat → Nat → β) :
    Shape2 n0 n1 ((List.range n1).map fun b => (List.range n0).map fun a => h a b) := by
  refine ⟨by simp, ?_⟩
  intro c hc
  obtain ⟨x, _, rfl⟩ := List.mem_map.mp hc
  simp

theorem shape2_zeros {α : Type} [Zero α] (n0 n1 : Nat) : Shape2 n0 n1 (zeros2 n0 n1 : List (List α)) := by
  refine ⟨by simp [zeros2], ?_⟩
  intro c hc
  simp only [zeros2, List.mem_replicate] at hc
  rw [hc.2]; simp

theorem shape3_zeros {α : Type} [Zero α] (n0 n1 n2 : Nat) :
    Shape3 n0 n1 n2 (zeros3 n0 n1 n2 : List (List (List α))) := by
  refine ⟨by simp [zeros3], ?_⟩
  intro c hc
  simp only [zeros3, List.mem_replicate] at hc
  rw [hc.2]; exact shape2_zeros _ _

theorem get2_map {α β : Type} (n : Nat) (l : List α) (f : α → Nat → β) (i p : Nat) (x : α)
    (hp : l[p]? = some x) (hi : i < n) :
    get2 (l.map fun x => (List.range n).map (f x)) i p = some (f x i) := by
  unfold get2
  rw [List.getElem?_map, hp]
  simp [hi]

/-! ### Geometry buffers -/

/-- The geometry of a cell at a list of points. -/
def Geometry.atPoints (G : Geometry R) (pts : List (List R)) (c : Nat) : CellGeom R :=
  { points := pts.map fun x => (List.range 3).map (G.point c x)
    normals := pts.map fun x => (List.range 3).map (G.normal c x)
    jacobians := pts.map fun x => (List.range 6).map (G.jacobian c x)
    jdets := pts.map (G.jdet c) }

theorem Geometry.atPoints_shaped (G : Geometry R) (pts : List (List R)) (c : Nat) :
    (G.atPoints pts c).Shaped pts.length where
  points := shape2_map 3 pts (G.point c)
  normals := shape2_map 3 pts (G.normal c)
  jacobians := shape2_map 6 pts (G.jacobian c)
  jdets := by simp [Geometry.atPoints]

theorem CellGeom.zeros_shaped [Zero R] (n : Nat) : (CellGeom.zeros n : CellGeom R).Shaped n where
  points := shape2_zeros _ _
  normals := shape2_zeros _ _
  jacobians := shape2_zeros _ _
  jdets := by simp [CellGeom.zeros]

theorem GeoMap.Evaluates.fill {ev : GeoMap R} {G : Geometry R} {pts : List (List R)} {c : Nat}
    (h : ev.Evaluates G pts c) {g : CellGeom R} (hg : g.Shaped pts.length) :
    ev.fill c g = some (G.atPoints pts c) := by
  unfold GeoMap.fill
  rw [h.points _ hg.points, h.jacobiansDetsNormals _ _ _ hg.jacobians hg.jdets hg.normals]
  rfl

theorem Basis.get_table (B : Basis R T) (t : CellType) (dim nd : Nat) (pts : List (List R)) (i p a : Nat)
    (x : List R) (hp : pts[p]? = some x) (hi : i < nd) (ha : a < dim) :
    get4 (B.table t dim nd pts) i p a 0 = some (B t a i x) := by
  unfold get4 get3 Basis.table
  simp only [List.getElem?_cons_zero, Option.bind_some]
  rw [List.getElem?_map, List.getElem?_range ha]
  simp only [Option.map_some, Option.bind_some]
  exact get2_map nd pts (fun x i => B t a i x) i p x hp hi

theorem Geometry.at_point (cast : R → T) (G : Geometry R) (pts : List (List R)) (c p : Nat) (x : List R)
    (hp : pts[p]? = some x) :
    (∀ i, i < 3 → ((G.atPoints pts c).at cast p).point i = some ((G.data cast c x).point i)) ∧
    (∀ i, i < 3 → ((G.atPoints pts c).at cast p).normal i = some ((G.data cast c x).normal i)) ∧
    (∀ i, i < 6 → ((G.atPoints pts c).at cast p).jacobian i = some ((G.data cast c x).jacobian i)) ∧
    ((G.atPoints pts c).at cast p).jdet = some (G.data cast c x).jdet ∧
    (G.atPoints pts c).jdets[p]? = some (G.jdet c x) := by
  refine ⟨?_, ?_, ?_, ?_, ?_⟩
  · intro i hi
    simp only [CellGeom.at, Geometry.atPoints]
    rw [get2_map 3 pts (G.point c) i p x hp hi]; rfl
  · intro i hi
    simp only [CellGeom.at, Geometry.atPoints]
    rw [get2_map 3 pts (G.normal c) i p x hp hi]; rfl
  · intro i hi
    simp only [CellGeom.at, Geometry.atPoints]
    rw [get2_map 6 pts (G.jacobian c) i p x hp hi]; rfl
  · simp only [CellGeom.at, Geometry.atPoints]
    rw [List.getElem?_map, hp]; rfl
  · simp only [Geometry.atPoints]
    rw [List.getElem?_map, hp]; rfl

/-! ### Singular pairs -/

/-- A singular cell-pair assembler in the middle of its work: everything that is set up once is as the
specification says; the buffers have the right shape. -/
structure SingPair.Ready (a : SingPair R T) (asm : Assembler R T) (testB trialB : Basis R T)
    (ns : List (List R × List R × R)) (tt rt : CellType) (dt dr : Nat) : Prop where
  integrand : a.integrand = asm.integrand
  kernel : a.kernel = asm.kernel
  testTable : a.testTable = testB.table tt dt (numDerivs asm.tableDerivs) (ns.map fun p => p.1)
  trialTable : a.trialTable = trialB.table rt dr (numDerivs asm.tableDerivs) (ns.map fun p => p.2.1)
  weights : a.weights = ns.map fun p => p.2.2
  k : Shape2 asm.derivSize ns.length a.k
  test : a.test.Shaped ns.length
  trial : a.trial.Shaped ns.length

section
variable {asm : Assembler R T} {testG trialG : Geometry R} {testB trialB : Basis R T}
  {tt rt : CellType} {dt dr : Nat} {F : MathIntegrand T} {G : MathKernel R T}

theorem SingPair.new_ready [Zero R] [Zero T] (ns : List (List R × List R × R)) (tev rev : GeoMap R) :
    (SingPair.new ns.length asm.derivSize asm.integrand asm.kernel tev rev
      (testB.table tt dt (numDerivs asm.tableDerivs) (ns.map fun p => p.1))
      (trialB.table rt dr (numDerivs asm.tableDerivs) (ns.map fun p => p.2.1))
      (ns.map fun p => p.2.2)).Ready asm testB trialB ns tt rt dt dr :=
  ⟨rfl, rfl, rfl, rfl, rfl, shape2_zeros _ _, CellGeom.zeros_shaped _, CellGeom.zeros_shaped _⟩

theorem SingPair.setTest {a : SingPair R T} {ns : List (List R × List R × R)} {c : Nat}
    (h : a.Ready asm testB trialB ns tt rt dt dr)
    (hev : a.testEvaluator.Evaluates testG (ns.map fun p => p.1) c) :
    a.setTestCell c = some { a with testCell := c, test := testG.atPoints (ns.map fun p => p.1) c } ∧
    ({ a with testCell := c, test := testG.atPoints (ns.map fun p => p.1) c } : SingPair R T).Ready asm
      testB trialB ns tt rt dt dr := by
  have := hev.fill (g := a.test) (by simpa using h.test)
  refine ⟨by simp [SingPair.setTestCell, this], ?_⟩
  exact ⟨h.integrand, h.kernel, h.testTable, h.trialTable, h.weights, h.k,
    by simpa using testG.atPoints_shaped (ns.map fun p => p.1) c, h.trial⟩

theorem SingPair.setTrial {a : SingPair R T} {ns : List (List R × List R × R)} {c : Nat}
    (h : a.Ready asm testB trialB ns tt rt dt dr)
    (hev : a.trialEvaluator.Evaluates trialG (ns.map fun p => p.2.1) c) :
    a.setTrialCell c =
      some { a with trialCell := c, trial := trialG.atPoints (ns.map fun p => p.2.1) c } ∧
    ({ a with trialCell := c, trial := trialG.atPoints (ns.map fun p => p.2.1) c } : SingPair R T).Ready
      asm testB trialB ns tt rt dt dr := by
  have := hev.fill (g := a.trial) (by simpa using h.trial)
  refine ⟨by simp [SingPair.setTrialCell, this], ?_⟩
  exact ⟨h.integrand, h.kernel, h.testTable, h.trialTable, h.weights, h.k, h.test,
    by simpa using trialG.atPoints_shaped (ns.map fun p => p.2.1) c⟩

variable [Zero T] [Add T] [Mul T] [Mul R]

/-- The sum over the nodes of a singular rule. -/
def singSum (cast : R → T) (F : MathIntegrand T) (G : MathKernel R T) (testG trialG : Geometry R)
    (testB trialB : Basis R T) (ns : List (List R × List R × R)) (tt rt : CellType) (c c' a b : Nat) : T :=
  ns.foldl (fun s p =>
    s + F (G (testG.coords c p.1) (trialG.coords c' p.2.1)) (fun i => testB tt a i p.1)
        (fun i => trialB rt b i p.2.1) (testG.data cast c p.1) (trialG.data cast c' p.2.1)
      * cast (p.2.2 * (testG.jdet c p.1 * trialG.jdet c' p.2.1))) 0

theorem SingPair.assemble_eq (cast : R → T) (hasm : asm.Computes F G) {a : SingPair R T}
    {ns : List (List R × List R × R)} {c c' : Nat} (h : a.Ready asm testB trialB ns tt rt dt dr)
    (ht : a.test = testG.atPoints (ns.map fun p => p.1) c)
    (hr : a.trial = trialG.atPoints (ns.map fun p => p.2.1) c')
    (m : List (List T)) (hm : Shape2 dt dr m) :
    ∃ k, Shape2 asm.derivSize ns.length k ∧ a.assemble cast m = some ({ a with k := k },
      (List.range dr).map fun b => (List.range dt).map fun i =>
        singSum cast F G testG trialG testB trialB ns tt rt c c' i b) := by
  have hk := hasm.kernel.pairwise ns.length a.test.points a.trial.points a.k h.test.points
    h.trial.points (by rw [hasm.comps]; exact h.k)
  rw [ht, hr] at hk
  simp only [Geometry.atPoints] at hk
  have hk' : List.zipWith (fun x y => (List.range asm.kernel.evalType.comps).map (G x y))
      ((ns.map fun p => p.1).map fun x => (List.range 3).map (testG.point c x))
      ((ns.map fun p => p.2.1).map fun x => (List.range 3).map (trialG.point c' x)) =
      ns.map fun p => (List.range asm.derivSize).map
        (G (testG.coords c p.1) (trialG.coords c' p.2.1)) := by
    rw [hasm.comps, List.map_map, List.map_map, List.zipWith_map, List.zipWith_self]
    rfl
  rw [hk'] at hk
  refine ⟨_, shape2_map asm.derivSize ns
    (fun p => G (testG.coords c p.1) (trialG.coords c' p.2.1)), ?_⟩
  unfold SingPair.assemble
  rw [h.kernel, ht, hr]
  simp only [Geometry.atPoints]
  rw [hk]
  simp only [Option.bind_eq_bind, Option.bind_some]
  rw [mapM_matrix (f := fun i b => a.entry cast _ i b)
    (h := fun i b => singSum cast F G testG trialG testB trialB ns tt rt c c' i b) dt dr m hm]
  · simp
  · intro i b hi hb
    unfold SingPair.entry singSum
    rw [h.weights]
    apply foldlM_zipIdx_eq
    intro p n s hp
    have hp1 : (ns.map fun p => p.1)[p]? = some n.1 := by simp [hp]
    have hp2 : (ns.map fun p => p.2.1)[p]? = some n.2.1 := by simp [hp]
    obtain ⟨t1, t2, t3, t4, t5⟩ := testG.at_point cast _ c p n.1 hp1
    obtain ⟨r1, r2, r3, r4, r5⟩ := trialG.at_point cast _ c' p n.2.1 hp2
    have hf := hasm.integrand
      (fun i => get2 (ns.map fun p => (List.range asm.derivSize).map
        (G (testG.coords c p.1) (trialG.coords c' p.2.1))) i p)
      (fun i' j => get4 a.testTable i' p i j) (fun i' j => get4 a.trialTable i' p b j)
      (a.test.at cast p) (a.trial.at cast p)
      (G (testG.coords c n.1) (trialG.coords c' n.2.1)) (fun i' => testB tt i i' n.1)
      (fun i' => trialB rt b i' n.2.1) (testG.data cast c n.1) (trialG.data cast c' n.2.1)
      (fun j hj => get2_map asm.derivSize ns
        (fun p => G (testG.coords c p.1) (trialG.coords c' p.2.1)) j p n hp hj)
      (fun j hj => by rw [h.testTable]; exact testB.get_table tt dt _ _ j p i n.1 hp1 hj hi)
      (fun j hj => by rw [h.trialTable]; exact trialB.get_table rt dr _ _ j p b n.2.1 hp2 hj hb)
      (by rw [ht]; exact t1) (by rw [hr]; exact r1) (by rw [ht]; exact t2) (by rw [hr]; exact r2)
      (by rw [ht]; exact t3) (by rw [hr]; exact r3) (by rw [ht]; exact t4) (by rw [hr]; exact r4)
    simp only [Nat.zero_add, evaluateSingular, h.integrand]
    rw [hf, ht, hr, t5, r5]
    rfl

end

/-! ### Regular pairs -/

/-- A regular cell-pair assembler in the middle of its work. -/
structure NonsingPair.Ready (a : NonsingPair R T) (asm : Assembler R T) (testG : Geometry R)
    (testB trialB : Basis R T) (ms ns : List (List R × R)) (cells : List Nat) (tt rt : CellType)
    (dt dr : Nat) : Prop where
  integrand : a.integrand = asm.integrand
  kernel : a.kernel = asm.kernel
  testTable : a.testTable = testB.table tt dt (numDerivs asm.tableDerivs) (ms.map fun p => p.1)
  trialTable : a.trialTable = trialB.table rt dr (numDerivs asm.tableDerivs) (ns.map fun p => p.1)
  testWeights : a.testWeights = ms.map fun p => p.2
  trialWeights : a.trialWeights = ns.map fun p => p.2
  k : Shape3 asm.derivSize ms.length ns.length a.k
  test : a.test = cells.map (testG.atPoints (ms.map fun p => p.1))
  testIndices : a.testIndices = cells.zipIdx.reverse
  trial : a.trial.Shaped ns.length

section
variable {asm : Assembler R T} {testG trialG : Geometry R} {testB trialB : Basis R T}
  {tt rt : CellType} {dt dr : Nat} {F : MathIntegrand T} {G : MathKernel R T} {cells : List Nat}
  {ms ns : List (List R × R)}

theorem mapM_some {α β : Type} (f : α → Option β) (g : α → β) (l : List α)
    (h : ∀ x ∈ l, f x = some (g x)) : l.mapM f = some (l.map g) := by
  induction l with
  | nil => rfl
  | cons x l ih =>
    rw [List.mapM_cons, h x (by simp), ih fun y hy => h y (by simp [hy])]
    rfl

theorem NonsingPair.new_ready [Zero R] [Zero T] (tev rev : GeoMap R)
    (hev : ∀ c ∈ cells, tev.Evaluates testG (ms.map fun p => p.1) c) :
    ∃ a, NonsingPair.new ms.length ns.length asm.derivSize cells asm.integrand asm.kernel tev rev
      (testB.table tt dt (numDerivs asm.tableDerivs) (ms.map fun p => p.1))
      (trialB.table rt dr (numDerivs asm.tableDerivs) (ns.map fun p => p.1))
      (ms.map fun p => p.2) (ns.map fun p => p.2) = some a ∧
      a.Ready asm testG testB trialB ms ns cells tt rt dt dr ∧ a.trialEvaluator = rev := by
  unfold NonsingPair.new
  rw [mapM_some _ (testG.atPoints (ms.map fun p => p.1)) cells (fun c hc =>
    (hev c hc).fill (by simpa using CellGeom.zeros_shaped ms.length))]
  exact ⟨_, rfl, ⟨rfl, rfl, rfl, rfl, rfl, rfl, shape3_zeros _ _ _, rfl, rfl,
    CellGeom.zeros_shaped _⟩, rfl⟩

theorem lookup_zipIdx_reverse {α : Type} [DecidableEq α] (l : List α) (x : α) (hx : x ∈ l) :
    ∃ i, Map.get? l.zipIdx.reverse x = some i ∧ l[i]? = some x := by
  unfold Map.get?
  have key : ∀ (m : List (α × Nat)), (∃ i, (x, i) ∈ m) → ∃ i, List.lookup x m = some i ∧ (x, i) ∈ m := by
    intro m
    induction m with
    | nil => rintro ⟨i, hi⟩; simp at hi
    | cons e m ih =>
      rintro ⟨i, hi⟩
      obtain ⟨y, j⟩ := e
      by_cases hxy : x = y
      · subst hxy
        exact ⟨j, by simp [List.lookup], by simp⟩
      · have hb : (x == y) = false := by simpa using hxy
        have : (x, i) ∈ m := by
          rcases List.mem_cons.mp hi with h | h
          · exact absurd (Prod.mk.inj h).1 hxy
          · exact h
        obtain ⟨k, hk, hk'⟩ := ih ⟨i, this⟩
        exact ⟨k, by simp only [List.lookup, hb]; exact hk, by simp [hk']⟩
  obtain ⟨i, hi⟩ := List.getElem?_of_mem hx
  obtain ⟨j, hj, hj'⟩ := key l.zipIdx.reverse
    ⟨i, by rw [List.mem_reverse, List.mem_zipIdx_iff_getElem?]; exact hi⟩
  refine ⟨j, hj, ?_⟩
  rw [List.mem_reverse, List.mem_zipIdx_iff_getElem?] at hj'
  exact hj'

theorem NonsingPair.setTest {a : NonsingPair R T} {c : Nat}
    (h : a.Ready asm testG testB trialB ms ns cells tt rt dt dr) (hc : c ∈ cells) :
    ∃ i, a.setTestCell c = some { a with testCell := i } ∧ cells[i]? = some c := by
  obtain ⟨i, h1, h2⟩ := lookup_zipIdx_reverse cells c hc
  refine ⟨i, ?_, h2⟩
  unfold NonsingPair.setTestCell
  rw [h.testIndices, h1]
  rfl

theorem NonsingPair.setTrial {a : NonsingPair R T} {c : Nat}
    (h : a.Ready asm testG testB trialB ms ns cells tt rt dt dr)
    (hev : a.trialEvaluator.Evaluates trialG (ns.map fun p => p.1) c) :
    a.setTrialCell c =
      some { a with trialCell := c, trial := trialG.atPoints (ns.map fun p => p.1) c } ∧
    ({ a with trialCell := c, trial := trialG.atPoints (ns.map fun p => p.1) c } :
      NonsingPair R T).Ready asm testG testB trialB ms ns cells tt rt dt dr := by
  have := hev.fill (g := a.trial) (by simpa using h.trial)
  refine ⟨by simp [NonsingPair.setTrialCell, this], ?_⟩
  exact ⟨h.integrand, h.kernel, h.testTable, h.trialTable, h.testWeights, h.trialWeights, h.k, h.test,
    h.testIndices, by simpa using trialG.atPoints_shaped (ns.map fun p => p.1) c⟩

variable [Zero T] [Add T] [Mul T] [Mul R]

/-- The sum over the nodes of two regular rules. -/
def regSum (cast : R → T) (F : MathIntegrand T) (G : MathKernel R T) (testG trialG : Geometry R)
    (testB trialB : Basis R T) (ms ns : List (List R × R)) (tt rt : CellType) (c c' a b : Nat) : T :=
  ms.foldl (fun s p => ns.foldl (fun s q =>
    s + F (G (testG.coords c p.1) (trialG.coords c' q.1)) (fun i => testB tt a i p.1)
        (fun i => trialB rt b i q.1) (testG.data cast c p.1) (trialG.data cast c' q.1)
      * cast (q.2 * trialG.jdet c' q.1) * cast (p.2 * testG.jdet c p.1)) s) 0

theorem NonsingPair.assemble_eq (cast : R → T) (hasm : asm.Computes F G) {a : NonsingPair R T}
    {c c' : Nat} (h : a.Ready asm testG testB trialB ms ns cells tt rt dt dr)
    (ht : cells[a.testCell]? = some c)
    (hr : a.trial = trialG.atPoints (ns.map fun p => p.1) c')
    (m : List (List T)) (hm : Shape2 dt dr m) :
    ∃ k, Shape3 asm.derivSize ms.length ns.length k ∧ a.assemble cast m = some ({ a with k := k },
      (List.range dr).map fun b => (List.range dt).map fun i =>
        regSum cast F G testG trialG testB trialB ms ns tt rt c c' i b) := by
  have htg : a.test[a.testCell]? = some (testG.atPoints (ms.map fun p => p.1) c) := by
    rw [h.test, List.getElem?_map, ht]; rfl
  have hts : (testG.atPoints (ms.map fun p => p.1) c).Shaped ms.length := by
    simpa using testG.atPoints_shaped (ms.map fun p => p.1) c
  have hk := hasm.kernel.all ms.length ns.length (testG.atPoints (ms.map fun p => p.1) c).points
    a.trial.points a.k hts.points h.trial.points (by rw [hasm.comps]; exact h.k)
  rw [hr, hasm.comps] at hk
  simp only [Geometry.atPoints, List.map_map] at hk
  refine ⟨ns.map fun q => ms.map fun p => (List.range asm.derivSize).map
    (G (testG.coords c p.1) (trialG.coords c' q.1)), ⟨by simp, ?_⟩, ?_⟩
  · intro l hl
    obtain ⟨q, _, rfl⟩ := List.mem_map.mp hl
    exact shape2_map asm.derivSize ms (fun p => G (testG.coords c p.1) (trialG.coords c' q.1))
  unfold NonsingPair.assemble
  rw [h.kernel, htg, hr]
  simp only [Geometry.atPoints, Option.bind_eq_bind, Option.bind_some, List.map_map]
  rw [hk]
  simp only [Option.bind_some]
  rw [mapM_matrix
    (f := fun i b => a.entry cast _ _ i b)
    (h := fun i b => regSum cast F G testG trialG testB trialB ms ns tt rt c c' i b) dt dr m hm]
  · simp only [Option.bind_some]
    rfl
  · intro i b hi hb
    unfold NonsingPair.entry regSum
    rw [h.testWeights, h.trialWeights]
    apply foldlM_zipIdx_eq
    intro p n s hp
    have hp1 : (ms.map fun p => p.1)[p]? = some n.1 := by simp [hp]
    obtain ⟨t1, t2, t3, t4, t5⟩ := testG.at_point cast _ c p n.1 hp1
    have t5' := t5
    simp only [Geometry.atPoints, List.map_map] at t5'
    simp only [Nat.zero_add]
    rw [t5']
    simp only [Option.bind_eq_bind, Option.bind_some]
    apply foldlM_zipIdx_eq
    intro q n' s hq
    have hq1 : (ns.map fun p => p.1)[q]? = some n'.1 := by simp [hq]
    obtain ⟨r1, r2, r3, r4, r5⟩ := trialG.at_point cast _ c' q n'.1 hq1
    have hf := hasm.integrand
      (fun i => get3 (ns.map fun q => ms.map fun p => (List.range asm.derivSize).map
        (G (testG.coords c p.1) (trialG.coords c' q.1))) i p q)
      (fun i' j => get4 a.testTable i' p i j) (fun i' j => get4 a.trialTable i' q b j)
      ((testG.atPoints (ms.map fun p => p.1) c).at cast p) (a.trial.at cast q)
      (G (testG.coords c n.1) (trialG.coords c' n'.1)) (fun i' => testB tt i i' n.1)
      (fun i' => trialB rt b i' n'.1) (testG.data cast c n.1) (trialG.data cast c' n'.1)
      (fun j hj => by
        simp only [get3]
        rw [List.getElem?_map, hq]
        exact get2_map asm.derivSize ms
          (fun p => G (testG.coords c p.1) (trialG.coords c' n'.1)) j p n hp hj)
      (fun j hj => by rw [h.testTable]; exact testB.get_table tt dt _ _ j p i n.1 hp1 hj hi)
      (fun j hj => by rw [h.trialTable]; exact trialB.get_table rt dr _ _ j q b n'.1 hq1 hj hb)
      t1 (by rw [hr]; exact r1) t2 (by rw [hr]; exact r2)
      t3 (by rw [hr]; exact r3) t4 (by rw [hr]; exact r4)
    simp only [Nat.zero_add, evaluateNonsingular, h.integrand]
    have hk2 : (ns.map ((fun y => ms.map ((fun x => (List.range asm.derivSize).map (G x y)) ∘
        (fun x => (List.range 3).map (testG.point c x)) ∘ fun p => p.1)) ∘
        (fun x => (List.range 3).map (trialG.point c' x)) ∘ fun p => p.1)) =
        ns.map fun q => ms.map fun p => (List.range asm.derivSize).map
          (G (testG.coords c p.1) (trialG.coords c' q.1)) := rfl
    rw [hk2]
    have hf' := hf
    simp only [Geometry.atPoints, List.map_map] at hf'
    rw [hf', hr, r5]
    rfl

end
end Bempp
