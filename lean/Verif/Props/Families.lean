import Verif.Spec.Families
import Verif.Props.Partition
import Verif.Props.Builder
/-
C96: the spaces of the element families that the library offers.
-/
namespace Bempp

theorem layer_range (m q s : Nat) :
    ((List.range m).flatMap fun i => List.range' (s + i * q) q) = List.range' s (m * q) := by
  induction m with
  | zero => simp
  | succ m ih =>
    rw [List.range_succ, List.flatMap_append, ih, List.flatMap_singleton, Nat.succ_mul, List.range'_append_1]

theorem layered_wf (k : Nat → Nat) (t : CellType) : (layeredElement k t).WF t where
  defined := fun d hd i hi => by simp [layeredElement, hd, hi]
  partition := by
    have h (d : Nat) (hd : d ≤ 2) : ((List.range (refCount t d)).flatMap fun i =>
        ((layeredElement k t).entityDofs d i).getD []) =
        List.range' (((List.range d).map fun e => refCount t e * k e).sum) (refCount t d * k d) := by
      rw [← layer_range]
      apply List.flatMap_congr
      intro i hi
      simp [layeredElement, hd, List.mem_range.mp hi]
    have : (layeredElement k t).allDofs t = List.range (layeredElement k t).dim := by
      unfold ElementDofs.allDofs
      rw [show List.range 3 = [0, 1, 2] from rfl]
      simp only [List.flatMap_cons, List.flatMap_nil, List.append_nil]
      rw [h 0 (by omega), h 1 (by omega), h 2 (by omega), ← List.append_assoc]
      simp only [show List.range 0 = [] from rfl, show List.range 1 = [0] from rfl, show List.range 2 = [0, 1] from rfl,
        List.map_cons, List.map_nil, List.sum_cons, List.sum_nil, Nat.add_zero]
      have e := @List.range'_append_1 0 (refCount t 0 * k 0) (refCount t 1 * k 1)
      rw [Nat.zero_add] at e
      rw [e]
      have e := @List.range'_append_1 0 (refCount t 0 * k 0 + refCount t 1 * k 1) (refCount t 2 * k 2)
      rw [Nat.zero_add] at e
      rw [e, List.range_eq_range']
      rfl
    rw [this]

theorem even_product (p : Nat) : 2 ∣ (p - 1) * (p - 2) := by
  rcases p with _ | _ | p
  · simp
  · simp
  · show 2 ∣ (p + 1) * p
    rw [mul_comm]
    exact (Nat.even_mul_succ_self p).two_dvd

theorem even_product' (p : Nat) : 2 ∣ (p + 1) * (p + 2) := (Nat.even_mul_succ_self (p + 1)).two_dvd

theorem half_interior (p : Nat) : (p - 1) * (p - 2) / 2 * 2 = (p - 1) * (p - 2) := Nat.div_mul_cancel (even_product p)

theorem half_polynomials (p : Nat) : trianglePolynomials p * 2 = (p + 1) * (p + 2) :=
  Nat.div_mul_cancel (even_product' p)

/-- **C96.** For every family and every degree there is an element with the DOFs where they belong; it satisfies the
contract that all other theorems use and its dimension is the number of functions on a cell. -/
theorem C96_elements (F : StandardFamily) (hF : F.Valid) (t : CellType) (ht : t = .triangle ∨ t = .quadrilateral) :
    (layeredElement (F.counts t) t).Uniform t (F.counts t) ∧ (layeredElement (F.counts t) t).dim = F.dim t := by
  refine ⟨⟨layered_wf _ t, ?_, ?_⟩, ?_⟩
  · intro d hd i hi l hl
    simp only [layeredElement, hd, hi, and_self, if_true, Option.some.injEq] at hl
    rw [← hl, List.length_range']
  · rcases F with p | p | p | p
    · show 0 < 1 + _ + _
      omega
    · show 0 < 0 + 0 + _
      have := half_polynomials p
      simp only [StandardFamily.counts]
      split
      · positivity
      · have : 0 < trianglePolynomials p := by
          rcases Nat.eq_zero_or_pos (trianglePolynomials p) with h | h
          · rw [h] at this; simp at this
          · exact h
        omega
    · show 0 < 0 + p + _
      have : 0 < p := hF
      omega
    · show 0 < 0 + p + _
      have : 0 < p := hF
      omega
  · have h1 := half_polynomials
    have h2 := half_interior
    rcases ht with rfl | rfl <;> rcases F with p | p | p | p <;>
      simp only [layeredElement, StandardFamily.counts, StandardFamily.dim, refCount, if_true, if_false, reduceCtorEq]
    · obtain ⟨q, rfl⟩ : ∃ q, p = q + 1 := ⟨p - 1, by have : 0 < p := hF; omega⟩
      have a := h1 (q + 1)
      have b := h2 (q + 1)
      rcases q with _ | q
      · simp at b
        simp only [Nat.reduceAdd] at a ⊢
        omega
      · have e1 : (q + 1 + 1 - 1) = q + 1 := by omega
        have e2 : (q + 1 + 1 - 2) = q := by omega
        rw [e1, e2] at b ⊢
        have : trianglePolynomials (q + 1 + 1) * 2 = (3 * 1 + 3 * (q + 1) + 1 * ((q + 1) * q / 2)) * 2 := by
          rw [a]
          have : (3 * 1 + 3 * (q + 1) + 1 * ((q + 1) * q / 2)) * 2 = 6 + 6 * (q + 1) + (q + 1) * q / 2 * 2 := by ring
          rw [this, b]
          ring
        omega
    · omega
    · obtain ⟨q, rfl⟩ : ∃ q, p = q + 1 := ⟨p - 1, by have : 0 < p := hF; omega⟩
      rw [show q + 1 - 1 = q by omega]; ring
    · obtain ⟨q, rfl⟩ : ∃ q, p = q + 1 := ⟨p - 1, by have : 0 < p := hF; omega⟩
      rw [show q + 1 - 1 = q by omega]; ring
    · obtain ⟨q, rfl⟩ : ∃ q, p = q + 1 := ⟨p - 1, by have : 0 < p := hF; omega⟩
      rw [show q + 1 - 1 = q by omega]; ring
    · omega
    · obtain ⟨q, rfl⟩ : ∃ q, p = q + 1 := ⟨p - 1, by have : 0 < p := hF; omega⟩
      rw [show q + 1 - 1 = q by omega]; ring
    · obtain ⟨q, rfl⟩ : ∃ q, p = q + 1 := ⟨p - 1, by have : 0 < p := hF; omega⟩
      rw [show q + 1 - 1 = q by omega]; ring

variable {T : Type} {s : Shape T} {g : Grid} {pt cl : Nat → Nat} {n : Nat} {fam : CellType → ElementDofs}

/-- Continuous functions of degree `p` on the triangles. -/
theorem interior_triangles (p : Nat) (hp : 0 < p) (a : Nat) :
    (p - 1) * (p - 2) / 2 * (2 * a) + (p - 1) * (3 * a) + a = p * p * a := by
  have h : (p - 1) * (p - 2) / 2 * (2 * a) = (p - 1) * (p - 2) * a := by
    rw [← mul_assoc, half_interior]
  rw [h]
  obtain ⟨q, rfl⟩ : ∃ q, p = q + 1 := ⟨p - 1, by omega⟩
  rcases q with _ | q
  · simp
  · rw [show q + 1 + 1 - 1 = q + 1 by omega, show q + 1 + 1 - 2 = q by omega]
    ring

section
variable [Zero T] [One T] [Neg T] [Add T] [Mul T] [Div T]

/-- **C96.** The spaces on the regular sphere of level `n`. -/
theorem C96_sphere (half : T) (sqrt : T → T) (F : StandardFamily) (hF : F.Valid) (hs : regularSphere half sqrt n = some s)
    (hb : Built s .triangle g pt cl) (hf : (fam .triangle).Uniform .triangle (F.counts .triangle)) :
    ∃ fs, FunctionSpace.new 0 1 g fam = .done fs ∧ fs.globalSize =
      match F with
      | .lagrange p => p ^ 2 * 4 ^ (n + 1) + 2
      | .discontinuous p => (p + 1) * (p + 2) * 4 ^ (n + 1)
      | .raviartThomas p => p * (2 * p + 1) * 4 ^ (n + 1)
      | .nedelec p => p * (2 * p + 1) * 4 ^ (n + 1) := by
  obtain ⟨fs, h1, h2⟩ := C46_sphere half sqrt hs hb hf
  refine ⟨fs, h1, ?_⟩
  rw [h2]
  have h8 : 8 * 4 ^ n = 2 * 4 ^ (n + 1) := by ring
  have h12 : 12 * 4 ^ n = 3 * 4 ^ (n + 1) := by ring
  rw [h8, h12]
  generalize 4 ^ (n + 1) = a
  rcases F with p | p | p | p <;> simp only [StandardFamily.counts, reduceCtorEq, if_false]
  · have := interior_triangles p hF a
    rw [pow_two, ← this]
    ring
  · rw [← half_polynomials]; ring
  · obtain ⟨q, rfl⟩ : ∃ q, p = q + 1 := ⟨p - 1, by have : 0 < p := hF; omega⟩
    rw [show q + 1 - 1 = q by omega]; ring
  · obtain ⟨q, rfl⟩ : ∃ q, p = q + 1 := ⟨p - 1, by have : 0 < p := hF; omega⟩
    rw [show q + 1 - 1 = q by omega]; ring

/-- **C96.** The spaces on the screen of triangles. -/
theorem C96_screen_triangles (fromNat : Nat → T) (F : StandardFamily) (hF : F.Valid)
    (hs : screenTriangles fromNat n = some s) (hb : Built s .triangle g pt cl)
    (hf : (fam .triangle).Uniform .triangle (F.counts .triangle)) :
    ∃ fs, FunctionSpace.new 0 1 g fam = .done fs ∧ fs.globalSize =
      match F with
      | .lagrange p => (p * n + 1) ^ 2
      | .discontinuous p => (p + 1) * (p + 2) * n ^ 2
      | .raviartThomas p => p * n * (2 * p * n + n + 2)
      | .nedelec p => p * n * (2 * p * n + n + 2) := by
  obtain ⟨fs, h1, h2⟩ := C46_screen_triangles fromNat hs hb hf
  refine ⟨fs, h1, ?_⟩
  rw [h2]
  rcases F with p | p | p | p <;> simp only [StandardFamily.counts, reduceCtorEq, if_false]
  · have := interior_triangles p hF (n * n)
    obtain ⟨q, rfl⟩ : ∃ q, p = q + 1 := ⟨p - 1, by have : 0 < p := hF; omega⟩
    have e : (((q + 1) * n + 1) ^ 2) = (q + 1) * (q + 1) * (n * n) + 2 * (q + 1) * n + 1 := by ring
    rw [e, ← this, show q + 1 - 1 = q by omega]
    ring
  · have := half_polynomials p
    calc _ = trianglePolynomials p * 2 * (n * n) := by ring
      _ = _ := by rw [this]; ring
  · obtain ⟨q, rfl⟩ : ∃ q, p = q + 1 := ⟨p - 1, by have : 0 < p := hF; omega⟩
    rw [show q + 1 - 1 = q by omega]; ring
  · obtain ⟨q, rfl⟩ : ∃ q, p = q + 1 := ⟨p - 1, by have : 0 < p := hF; omega⟩
    rw [show q + 1 - 1 = q by omega]; ring

/-- **C96.** The spaces on the screen of quadrilaterals. -/
theorem C96_screen_quadrilaterals (fromNat : Nat → T) (F : StandardFamily) (hF : F.Valid)
    (hs : screenQuadrilaterals fromNat n = some s) (hb : Built s .quadrilateral g pt cl)
    (hf : (fam .quadrilateral).Uniform .quadrilateral (F.counts .quadrilateral)) :
    ∃ fs, FunctionSpace.new 0 1 g fam = .done fs ∧ fs.globalSize =
      match F with
      | .lagrange p => (p * n + 1) ^ 2
      | .discontinuous p => ((p + 1) * n) ^ 2
      | .raviartThomas p => 2 * p * n * (p * n + 1)
      | .nedelec p => 2 * p * n * (p * n + 1) := by
  obtain ⟨fs, h1, h2⟩ := C46_screen_quadrilaterals fromNat hs hb hf
  refine ⟨fs, h1, ?_⟩
  rw [h2]
  rcases F with p | p | p | p <;> simp only [StandardFamily.counts, if_true]
  · obtain ⟨q, rfl⟩ : ∃ q, p = q + 1 := ⟨p - 1, by have : 0 < p := hF; omega⟩
    rw [show q + 1 - 1 = q by omega]; ring
  · ring
  · obtain ⟨q, rfl⟩ : ∃ q, p = q + 1 := ⟨p - 1, by have : 0 < p := hF; omega⟩
    rw [show q + 1 - 1 = q by omega]; ring
  · obtain ⟨q, rfl⟩ : ∃ q, p = q + 1 := ⟨p - 1, by have : 0 < p := hF; omega⟩
    rw [show q + 1 - 1 = q by omega]; ring

end

/-- **C96.** On a distributed grid every process gets the same global size, that of the undistributed grid, for every
family. -/
theorem C96_distributed {t : CellType} {m : Nat} {G : Nat → Grid} {num : Nat → Nat → Nat → Nat} {sp : Nat → FunctionSpace}
    {sS : FunctionSpace} (F : StandardFamily) (hb : Built s t g pt cl) (hf : (fam t).Uniform t (F.counts t))
    (h : PartOf m G g num) (hfin : Finished m G fam sp) (hS : FunctionSpace.new 0 1 g fam = .done sS) (r : Nat) (hr : r < m) :
    (sp r).globalSize = sS.globalSize := by
  obtain ⟨p, hp⟩ := C45_renumbering h (hb.family hf) hfin hS
  exact hp.size r hr

/-! ### The hypotheses can be met -/

namespace Examples

/-- C96: all families on spheres of all levels. -/
example (F : StandardFamily) (hF : F.Valid) (n : Nat) : ∃ s g pt cl fs, regularSphere (1 : Int) id n = some s ∧
    Built s .triangle g pt cl ∧ FunctionSpace.new 0 1 g (layeredElement (F.counts .triangle)) = .done fs := by
  obtain ⟨s, hs, -⟩ := C30_sizes (1 : Int) id n
  obtain ⟨-, -, -, ⟨g, pt, cl, hb⟩, -⟩ := C47_conforming (1 : Int) id (fun k => (k : Int)) (.inl ⟨hs, rfl⟩)
  obtain ⟨fs, h, -⟩ := C96_sphere _ _ F hF hs hb (C96_elements F hF .triangle (.inl rfl)).1
  exact ⟨s, g, pt, cl, fs, hs, hb, h⟩

/-- Cubic continuous functions on the level 5 sphere. -/
example : ∃ (s : Shape Int) (g : Grid) (fs : FunctionSpace), regularSphere (1 : Int) id 5 = some s ∧
    FunctionSpace.new 0 1 g (layeredElement ((StandardFamily.lagrange 3).counts .triangle)) = .done fs ∧
    fs.globalSize = 36866 := by
  obtain ⟨s, hs, -⟩ := C30_sizes (1 : Int) id 5
  obtain ⟨-, -, -, ⟨g, pt, cl, hb⟩, -⟩ := C47_conforming (1 : Int) id (fun k => (k : Int)) (.inl ⟨hs, rfl⟩)
  obtain ⟨fs, h, e⟩ := C96_sphere _ _ (.lagrange 3) (by show 0 < 3; omega) hs hb
    (C96_elements (.lagrange 3) (by show 0 < 3; omega) .triangle (.inl rfl)).1
  exact ⟨s, g, fs, hs, h, by rw [e]; norm_num⟩

end Examples

end Bempp
