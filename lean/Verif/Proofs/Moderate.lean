import Verif.Proofs.Range
import Verif.Proofs.Adjacent
/-
Sizes of the intermediate results for moderate data.
-/
set_option linter.unusedSectionVars false

namespace Bempp
open NNReal

namespace Scale
variable {m : ℝ≥0}

theorem top_add_le {x y : Scale m} {a b : ℝ≥0} (hx : x.top ≤ a) (hy : y.top ≤ b) : (x + y).top ≤ a + b := by
  refine max_le ?_ ?_
  · rw [add_size]
    exact add_le_add (x.size_le_top.trans hx) (y.size_le_top.trans hy)
  · rw [add_peak]
    exact max_le ((x.peak_le_top.trans hx).trans le_self_add) ((y.peak_le_top.trans hy).trans le_add_self)

theorem top_mul_le (hm : m ≤ 1) {x y : Scale m} {a b : ℝ≥0} (ha : 1 ≤ a) (hb : 1 ≤ b) (hx : x.top ≤ a)
    (hy : y.top ≤ b) : (x * y).top ≤ 2 * a * b := by
  have h1 : (1 : ℝ≥0) ≤ a * b := one_le_mul ha hb
  refine max_le ?_ ?_
  · rw [mul_size]
    calc x.size * y.size + m ≤ a * b + a * b :=
          add_le_add (mul_le_mul' (x.size_le_top.trans hx) (y.size_le_top.trans hy)) (hm.trans h1)
      _ = 2 * a * b := by ring
  · rw [mul_peak]
    refine max_le (hx.trans ?_) (hy.trans ?_)
    · calc a = a * 1 := (mul_one a).symm
        _ ≤ (2 * a) * b := mul_le_mul' (le_mul_of_one_le_left zero_le one_le_two) hb
    · calc b = 1 * b := (one_mul b).symm
        _ ≤ (2 * a) * b := mul_le_mul' (one_le_mul one_le_two ha) le_rfl

theorem top_div_le (hm : m ≤ 1) {x y : Scale m} {a C : ℝ≥0} (ha : 1 ≤ a) (hC : 1 ≤ C) (hx : x.top ≤ a)
    (hy : y.top ≤ C) (hy' : 1 / C ≤ y.size) : (x / y).top ≤ 2 * a * C := by
  have h1 : (1 : ℝ≥0) ≤ a * C := one_le_mul ha hC
  have hC0 : 0 < C := lt_of_lt_of_le one_pos hC
  have hy0 : 0 < y.size := lt_of_lt_of_le (by positivity) hy'
  have hi : 1 / y.size ≤ C := by
    rw [div_le_iff₀ hy0]
    rw [div_le_iff₀ hC0] at hy'
    rwa [mul_comm] at hy'
  refine max_le ?_ ?_
  · rw [div_size]
    calc x.size / y.size + m = x.size * (1 / y.size) + m := by rw [mul_one_div]
      _ ≤ a * C + a * C := add_le_add (mul_le_mul' (x.size_le_top.trans hx) hi) (hm.trans h1)
      _ = 2 * a * C := by ring
  · rw [div_peak]
    refine max_le (hx.trans ?_) (hy.trans ?_)
    · calc a = a * 1 := (mul_one a).symm
        _ ≤ (2 * a) * C := mul_le_mul' (le_mul_of_one_le_left zero_le one_le_two) hC
    · calc C = 1 * C := (one_mul C).symm
        _ ≤ (2 * a) * C := mul_le_mul' (one_le_mul one_le_two ha) le_rfl

theorem top_of {𝕜 : Type} [NormedField 𝕜] {x : 𝕜} {C : ℝ≥0} (h : ‖x‖ ≤ C) : (.of x : Scale m).top ≤ C :=
  max_le (by exact_mod_cast h) zero_le

theorem top_real {x : ℝ} {C : ℝ≥0} (h : |x| ≤ C) : (.of x : Scale m).top ≤ C := top_of (by rwa [Real.norm_eq_abs])

theorem top_zero : (0 : Scale m).top = 0 := max_self _

theorem top_sum_le {α : Type} (l : List α) (f : α → Scale m) (k : α → Nat) {b : ℝ≥0}
    (h : ∀ x ∈ l, (f x).top ≤ k x * b) : (l.map f).sum.top ≤ ((l.map k).sum : Nat) * b := by
  induction l with
  | nil => simp [top_zero]
  | cons x l ih =>
    rw [List.map_cons, List.sum_cons, List.map_cons, List.sum_cons, Nat.cast_add, add_mul]
    exact top_add_le (h x (by simp)) (ih fun y hy => h y (by simp [hy]))

end Scale

section
variable {m C : ℝ≥0} {K U V : Nat → Scale m} {P P' : PointData (Scale m)}

/-- The sizes of geometric data are moderate. -/
structure PointData.Tame (C : ℝ≥0) (P : PointData (Scale m)) : Prop where
  normal : ∀ i < 3, (P.normal i).top ≤ C
  jacobian : ∀ i < 6, (P.jacobian i).top ≤ C
  jdet : P.jdet.top ≤ C
  jdet' : 1 / C ≤ P.jdet.size

open Scale in
theorem curl_tame (hm : m ≤ 1) (hC : 1 ≤ C) (hU : ∀ i < 3, (U i).top ≤ C) (hP : P.Tame C) {i : Nat} (hi : i < 3) :
    (surfaceCurl P U i).top ≤ 4 * C ^ 2 := by
  unfold surfaceCurl
  rw [Scale.sub_eq]
  refine (top_add_le (top_mul_le hm hC hC (hP.jacobian _ (by omega)) (hU _ (by omega)))
    (top_mul_le hm hC hC (hP.jacobian _ (by omega)) (hU _ (by omega)))).trans_eq ?_
  ring

theorem one_le_pow_mul (hC : 1 ≤ C) (k n : Nat) (hk : 1 ≤ k) : (1 : ℝ≥0) ≤ k * C ^ n :=
  one_le_mul (by exact_mod_cast hk) (one_le_pow₀ hC)

open Scale in
theorem curlCurl_tame (hm : m ≤ 1) (hC : 1 ≤ C) (hK : ∀ i < 4, (K i).top ≤ C) (hU : ∀ i < 3, (U i).top ≤ C)
    (hV : ∀ i < 3, (V i).top ≤ C) (hP : P.Tame C) (hP' : P'.Tame C) :
    (curlCurlF K U V P P').top ≤ 768 * C ^ 7 := by
  unfold curlCurlF
  have c : ∀ i < 3, (surfaceCurl P U i * surfaceCurl P' V i).top ≤ 32 * C ^ 4 := fun i hi =>
    (top_mul_le hm (one_le_pow_mul hC 4 2 (by omega)) (one_le_pow_mul hC 4 2 (by omega)) (curl_tame hm hC hU hP hi)
      (curl_tame hm hC hV hP' hi)).trans_eq (by push_cast; ring)
  have s := top_add_le (top_add_le (c 0 (by omega)) (c 1 (by omega))) (c 2 (by omega))
  have s' := s.trans_eq (show _ = (96 : Nat) * C ^ 4 by push_cast; ring)
  have p := (top_mul_le hm hC (one_le_pow_mul hC 96 4 (by omega)) (hK 0 (by omega)) s').trans_eq
    (show _ = (192 : Nat) * C ^ 5 by push_cast; ring)
  have q := (top_div_le hm (one_le_pow_mul hC 192 5 (by omega)) hC p hP.jdet hP.jdet').trans_eq
    (show _ = (384 : Nat) * C ^ 6 by push_cast; ring)
  exact (top_div_le hm (one_le_pow_mul hC 384 6 (by omega)) hC q hP'.jdet hP'.jdet').trans_eq (by push_cast; ring)

open Scale in
theorem normalNormal_tame (hm : m ≤ 1) (hC : 1 ≤ C) (hK : ∀ i < 4, (K i).top ≤ C) (hU : ∀ i < 3, (U i).top ≤ C)
    (hV : ∀ i < 3, (V i).top ≤ C) (hP : P.Tame C) (hP' : P'.Tame C) :
    (normalNormalF K U V P P').top ≤ 48 * C ^ 5 := by
  unfold normalNormalF
  have c : ∀ i < 3, (P'.normal i * P.normal i).top ≤ 2 * C ^ 2 := fun i hi =>
    (top_mul_le hm hC hC (hP'.normal i hi) (hP.normal i hi)).trans_eq (by ring)
  have s := (top_add_le (top_add_le (c 0 (by omega)) (c 1 (by omega))) (c 2 (by omega))).trans_eq
    (show _ = (6 : Nat) * C ^ 2 by push_cast; ring)
  have p := (top_mul_le hm hC (one_le_pow_mul hC 6 2 (by omega)) (hK 0 (by omega)) s).trans_eq
    (show _ = (12 : Nat) * C ^ 3 by push_cast; ring)
  have q := (top_mul_le hm (one_le_pow_mul hC 12 3 (by omega)) hC p (hU 0 (by omega))).trans_eq
    (show _ = (24 : Nat) * C ^ 4 by push_cast; ring)
  exact (top_mul_le hm (one_le_pow_mul hC 24 4 (by omega)) hC q (hV 0 (by omega))).trans_eq (by push_cast; ring)

theorem pow_mono_mul (hC : 1 ≤ C) {a b : ℝ≥0} {n k : Nat} (h : a ≤ b) (hn : n ≤ k) : a * C ^ n ≤ b * C ^ k :=
  mul_le_mul' h (pow_le_pow_right₀ hC hn)

open Scale in
/-- Every formula is at most `1024 C^7`. -/
theorem ModerateFormula.tame {W : MathIntegrand (Scale m)} (hW : ModerateFormula C W) (hm : m ≤ 1) (hC : 1 ≤ C)
    (hK : ∀ i < 4, (K i).top ≤ C) (hU : ∀ i < 3, (U i).top ≤ C) (hV : ∀ i < 3, (V i).top ≤ C) (hP : P.Tame C)
    (hP' : P'.Tame C) : (W K U V P P').top ≤ 1024 * C ^ 7 := by
  cases hW with
  | singleLayer =>
    have p := (top_mul_le hm hC hC (hK 0 (by omega)) (hU 0 (by omega))).trans_eq
      (show _ = (2 : Nat) * C ^ 2 by push_cast; ring)
    have q := (top_mul_le hm (one_le_pow_mul hC 2 2 (by omega)) hC p (hV 0 (by omega))).trans_eq
      (show _ = 4 * C ^ 3 by push_cast; ring)
    exact q.trans (pow_mono_mul hC (by norm_num) (by omega))
  | doubleLayer =>
    have c : ∀ j < 4, ∀ i < 3, (K j * P'.normal i).top ≤ 2 * C ^ 2 := fun j hj i hi =>
      (top_mul_le hm hC hC (hK j hj) (hP'.normal i hi)).trans_eq (by ring)
    have s := (top_add_le (top_add_le (c 1 (by omega) 0 (by omega)) (c 2 (by omega) 1 (by omega)))
      (c 3 (by omega) 2 (by omega))).trans_eq (show _ = (6 : Nat) * C ^ 2 by push_cast; ring)
    have p := (top_mul_le hm (one_le_pow_mul hC 6 2 (by omega)) hC s (hU 0 (by omega))).trans_eq
      (show _ = (12 : Nat) * C ^ 3 by push_cast; ring)
    have q := (top_mul_le hm (one_le_pow_mul hC 12 3 (by omega)) hC p (hV 0 (by omega))).trans_eq
      (show _ = 24 * C ^ 4 by push_cast; ring)
    exact q.trans (pow_mono_mul hC (by norm_num) (by omega))
  | adjointDoubleLayer =>
    have c : ∀ j < 4, ∀ i < 3, (K j * P.normal i).top ≤ 2 * C ^ 2 := fun j hj i hi =>
      (top_mul_le hm hC hC (hK j hj) (hP.normal i hi)).trans_eq (by ring)
    have s := (top_add_le (top_add_le (c 1 (by omega) 0 (by omega)) (c 2 (by omega) 1 (by omega)))
      (c 3 (by omega) 2 (by omega))).trans_eq (show _ = (6 : Nat) * C ^ 2 by push_cast; ring)
    have p := (top_mul_le hm (one_le_pow_mul hC 6 2 (by omega)) hC s (hU 0 (by omega))).trans_eq
      (show _ = (12 : Nat) * C ^ 3 by push_cast; ring)
    have q := (top_mul_le hm (one_le_pow_mul hC 12 3 (by omega)) hC p (hV 0 (by omega))).trans_eq
      (show _ = 24 * C ^ 4 by push_cast; ring)
    exact q.trans (pow_mono_mul hC (by norm_num) (by omega))
  | hypersingular =>
    exact (curlCurl_tame hm hC hK hU hV hP hP').trans (pow_mono_mul hC (by norm_num) le_rfl)
  | helmholtzHypersingular w hw =>
    unfold helmholtzHypF
    rw [Scale.neg_eq]
    have e := (top_mul_le hm hC hC (top_real (m := m) hw) (top_real hw)).trans_eq
      (show _ = (2 : Nat) * C ^ 2 by push_cast; ring)
    have n := (top_mul_le hm (one_le_pow_mul hC 2 2 (by omega)) (one_le_pow_mul hC 48 5 (by omega)) e
      (normalNormal_tame hm hC hK hU hV hP hP')).trans_eq (show _ = 192 * C ^ 7 by push_cast; ring)
    refine (top_add_le (curlCurl_tame hm hC hK hU hV hP hP') n).trans ?_
    rw [← add_mul]
    exact pow_mono_mul hC (by norm_num) le_rfl

end

section
variable {𝕜 : Type} [NormedField 𝕜] {m C : ℝ≥0} {K : MathKernel ℝ 𝕜} {GT GR : Geometry ℝ} {BT BR : Basis ℝ 𝕜}
  {Q : Quadrature ℝ} {test trial : FunctionSpace} {W : MathIntegrand (Scale m)} {t : CellType} {dimT dimR N : Nat}

theorem data_tame {G : Geometry ℝ} {c : Nat} {x : List ℝ}
    (h : (∀ i < 3, |G.normal c x i| ≤ C) ∧ (∀ i < 6, |G.jacobian c x i| ≤ C) ∧ |G.jdet c x| ≤ C ∧
      1 / C ≤ |G.jdet c x|) : (G.data (.of : ℝ → Scale m) c x).Tame C :=
  ⟨fun i hi => Scale.top_real (h.1 i hi), fun i hi => Scale.top_real (h.2.1 i hi), Scale.top_real h.2.2.1,
    by
      have := h.2.2.2
      show 1 / C ≤ ‖G.jdet c x‖₊
      rw [← NNReal.coe_le_coe]
      exact_mod_cast this⟩

open Scale in
theorem pairScale_tame (hm : m ≤ 1) (hM : Moderate K GT GR BT BR Q test trial C t dimT dimR)
    (hW : ModerateFormula C W) (hN : (Q.regular t).length * (Q.regular t).length ≤ N)
    (hN' : ∀ con, con.Possible t t → (Q.singular t t con).length ≤ N) {c c' : Entity}
    (hc : c ∈ test.grid.entityIter 2) (hc' : c' ∈ trial.grid.entityIter 2) (ht : c.entityType = t)
    (ht' : c'.entityType = t)
    (hp : test.grid.addr = trial.grid.addr ∧ c.Touches c' → (connectivity c c').Possible t t) {a b : Nat} (ha : a < dimT)
    (hb : b < dimR) : (pairScale m K GT GR BT BR Q test trial W c c' a b).top ≤ N * (16384 * C ^ 11) := by
  have hC := hM.one_le
  have f : ∀ x y, Q.Node t x → Q.Node t y → Q.Pair test trial c c' x y →
      (integrandScale m K GT GR BT BR W t t c.localIndex c'.localIndex a b x y).top ≤ (1024 : Nat) * C ^ 7 :=
    fun x y hx hy hxy => hW.tame hm hC (fun i hi => top_of (hM.kernel c hc c' hc' x y hxy i hi))
      (fun i hi => top_of (hM.testBasis x hx a i ha hi)) (fun i hi => top_of (hM.trialBasis y hy b i hb hi))
      (data_tame (hM.testGeometry c hc x hx)) (data_tame (hM.trialGeometry c' hc' y hy))
  unfold pairScale
  by_cases hs : test.grid.addr = trial.grid.addr ∧ c.Touches c'
  · rw [if_pos hs, ht, ht']
    have hpo := hp hs
    refine (top_sum_le _ _ (fun _ => 1) (b := 16384 * C ^ 11) fun p hpp => ?_).trans (mul_le_mul' ?_ le_rfl)
    swap
    · rw [List.map_const', List.sum_replicate, smul_eq_mul, mul_one]
      exact_mod_cast hN' _ hpo
    have n1 : Q.Node t p.1 := .inr ⟨_, hpo, p, hpp, .inl rfl⟩
    have n2 : Q.Node t p.2.1 := .inr ⟨_, hpo, p, hpp, .inr rfl⟩
    have f1 := f p.1 p.2.1 n1 n2 (by
      unfold Quadrature.Pair
      rw [if_pos hs, ht, ht']
      exact ⟨p, hpp, rfl, rfl⟩)
    have j := (top_mul_le hm hC hC (top_real (hM.testGeometry c hc _ n1).2.2.1)
      (top_real (hM.trialGeometry c' hc' _ n2).2.2.1)).trans_eq (show _ = (2 : Nat) * C ^ 2 by push_cast; ring)
    have w := (top_mul_le hm hC (one_le_pow_mul hC 2 2 (by omega)) (top_real (hM.singular _ hpo p hpp)) j).trans_eq
      (show _ = (4 : Nat) * C ^ 3 by push_cast; ring)
    have e := (top_mul_le hm (one_le_pow_mul hC 1024 7 (by omega)) (one_le_pow_mul hC 4 3 (by omega)) f1 w).trans_eq
      (show _ = 8192 * C ^ 10 by push_cast; ring)
    rw [Nat.cast_one, one_mul]
    exact e.trans (pow_mono_mul hC (by norm_num) (by omega))
  · rw [if_neg hs, ht, ht']
    refine (top_sum_le _ _ (fun _ => (Q.regular t).length) (b := 16384 * C ^ 11) fun p hpp => ?_).trans
      (mul_le_mul' ?_ le_rfl)
    · refine (top_sum_le _ _ (fun _ => 1) (b := 16384 * C ^ 11) fun q hq => ?_).trans_eq (by simp)
      have n1 : Q.Node t p.1 := .inl ⟨p, hpp, rfl⟩
      have n2 : Q.Node t q.1 := .inl ⟨q, hq, rfl⟩
      have f1 := f p.1 q.1 n1 n2 (by
        unfold Quadrature.Pair
        rw [if_neg hs, ht, ht']
        exact ⟨⟨p, hpp, rfl⟩, q, hq, rfl⟩)
      have j := (top_mul_le hm hC hC (top_real (hM.regular q hq))
        (top_real (hM.trialGeometry c' hc' _ n2).2.2.1)).trans_eq (show _ = (2 : Nat) * C ^ 2 by push_cast; ring)
      have j' := (top_mul_le hm hC hC (top_real (hM.regular p hpp))
        (top_real (hM.testGeometry c hc _ n1).2.2.1)).trans_eq (show _ = (2 : Nat) * C ^ 2 by push_cast; ring)
      have e := (top_mul_le hm (one_le_pow_mul hC 1024 7 (by omega)) (one_le_pow_mul hC 2 2 (by omega)) f1 j).trans_eq
        (show _ = (4096 : Nat) * C ^ 9 by push_cast; ring)
      have e' := (top_mul_le hm (one_le_pow_mul hC 4096 9 (by omega)) (one_le_pow_mul hC 2 2 (by omega)) e j').trans_eq
        (show _ = 16384 * C ^ 11 by push_cast; ring)
      rw [Nat.cast_one, one_mul]
      exact e'
    · have : ((Q.regular t).map fun _ => (Q.regular t).length).sum = (Q.regular t).length * (Q.regular t).length := by
        simp
      rw [this]
      exact_mod_cast hN

theorem doubleSum_top_le {f : Entity → Entity → Nat → Nat → Scale m} {i j : Nat} {b : ℝ≥0}
    (h : ∀ c c' x y, IsTerm test trial i j c c' x y → (f c c' x y).top ≤ b) :
    (doubleSum test trial f i j).top ≤ entryTerms test trial i j * b := by
  unfold entryTerms doubleSum
  refine Scale.top_sum_le _ _ _ fun c hc => Scale.top_sum_le _ _ _ fun c' hc' => Scale.top_sum_le _ _ _ fun x hx =>
    Scale.top_sum_le _ _ _ fun y hy => ?_
  split
  · rename_i hxy
    rw [Nat.cast_one, one_mul]
    exact h c c' _ _ ⟨hc, hc', by rw [← hxy.1]; exact hx, by rw [← hxy.2]; exact hy⟩
  · simp [Scale.top_zero]

end
end Bempp
