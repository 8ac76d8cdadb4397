import Verif.Model.FunctionSpace
import Verif.Lemmas.Fold
import Verif.Lemmas.ListExtra
/-
Result of the numbering loop of `FunctionSpace::new`.
-/
namespace Bempp
open FunctionSpace

/-- Number of entries owned by `rank`. -/
def ownedCount (rank : Nat) (od : List (Nat × Nat × Nat × Nat)) : Nat :=
  od.countP fun o => o.1 == rank

/-- The request entries for process `p`. -/
def ghostList (p : Nat) (od : List (Nat × Nat × Nat × Nat)) : List (Nat × Nat × Nat × Nat) :=
  (od.zipIdx.filter fun x => x.1.1 == p).map fun x => (x.2, x.1.2.1, x.1.2.2.1, x.1.2.2.2)

/-- The global number given to the entry at position `i`. -/
def numOf (rank off : Nat) (od : List (Nat × Nat × Nat × Nat)) (i : Nat) : Nat :=
  match od[i]? with
  | some o => if o.1 = rank then off + ownedCount rank (od.take i) else 0
  | none => 0

theorem numberOwned_spec (rank size : Nat) (od : List (Nat × Nat × Nat × Nat)) (off : Nat)
    (hlt : ∀ o ∈ od, o.1 < size) :
    ∃ st, numberOwned rank size od.length od off = some st ∧
      st.dofN = off + ownedCount rank od ∧
      st.globalDofNumbers = (List.range od.length).map (numOf rank off od) ∧
      st.ghosts.length = size ∧
      ∀ p, p < size → p ≠ rank → st.ghosts[p]? = some (ghostList p od) := by
  unfold numberOwned
  have hloop := foldlM_inv (numStep rank)
    (fun pre st =>
      (∃ m, m ≤ od.length ∧ pre = (od.take m).zipIdx ∧ m = pre.length) ∧
      st.dofN = off + ownedCount rank (od.take pre.length) ∧
      st.globalDofNumbers = (List.range od.length).map
        (fun i => if i < pre.length then numOf rank off od i else 0) ∧
      st.ghosts.length = size ∧
      ∀ p, p < size → p ≠ rank → st.ghosts[p]? = some (ghostList p (od.take pre.length)))
    od.zipIdx
    { globalDofNumbers := List.replicate od.length 0
      dofN := off
      ghosts := List.replicate size [] }
    (by
      refine ⟨⟨0, by simp, by simp, rfl⟩, by simp [ownedCount], ?_, by simp, ?_⟩
      · simp
      · intro p hp _; simp [hp, ghostList])
    (by
      rintro pre ⟨o, i⟩ post st hsplit ⟨⟨m, hm, hpre, hml⟩, hdof, hglob, hgl, hgh⟩
      have hi : od.zipIdx[pre.length]? = some (o, i) := by
        rw [hsplit]; simp
      rw [List.getElem?_zipIdx] at hi
      simp only [Option.map_eq_some_iff, Prod.mk.injEq, Nat.zero_add] at hi
      obtain ⟨o', ho, rfl, rfl⟩ := hi
      have hlen : pre.length < od.length := (List.getElem?_eq_some_iff.mp ho).1
      have htake : od.take (pre.length + 1) = od.take pre.length ++ [o'] := by
        rw [List.take_add_one, ho]; rfl
      have hpre' : pre ++ [(o', pre.length)] = (od.take (pre.length + 1)).zipIdx := by
        rw [htake, List.zipIdx_append]
        have h1 : pre = (od.take pre.length).zipIdx := by rw [← hml]; exact hpre
        conv_lhs => rw [h1]
        simp [Nat.min_eq_left (Nat.le_of_lt hlen)]
      have hghost : ∀ p, ghostList p (od.take (pre.length + 1)) =
          ghostList p (od.take pre.length) ++
            (if o'.1 = p then [(pre.length, o'.2.1, o'.2.2.1, o'.2.2.2)] else []) := by
        intro p
        unfold ghostList
        rw [htake, List.zipIdx_append, List.filter_append, List.map_append]
        congr 1
        simp only [List.length_take, Nat.min_eq_left (Nat.le_of_lt hlen), Nat.zero_add]
        by_cases h : o'.1 = p <;> simp [h]
      by_cases hr : o'.1 = rank
      · refine ⟨{ st with
            globalDofNumbers := st.globalDofNumbers.set pre.length st.dofN
            dofN := st.dofN + 1 }, ?_, ⟨pre.length + 1, by omega, hpre', by simp⟩, ?_, ?_, hgl, ?_⟩
        · unfold numStep
          simp only [hr, if_true]
          rw [if_pos (by rw [hglob]; simpa using hlen)]
        · simp only [List.length_append, List.length_singleton]
          rw [hdof, htake]
          simp [ownedCount, hr]; omega
        · simp only [List.length_append, List.length_singleton]
          apply List.ext_getElem?
          intro j
          rw [hglob, List.getElem?_set]
          by_cases hj : pre.length = j
          · subst hj
            simp only [if_true, List.length_map, List.length_range, hlen]
            rw [List.getElem?_map, List.getElem?_range hlen]
            simp [numOf, ho, hr, hdof]
          · rw [if_neg hj, List.getElem?_map, List.getElem?_map]
            by_cases hjl : j < od.length
            · rw [List.getElem?_range hjl]
              simp only [Option.map_some, Option.some.injEq]
              by_cases h1 : j < pre.length
              · rw [if_pos h1, if_pos (by omega)]
              · rw [if_neg h1, if_neg (by omega)]
            · rw [List.getElem?_eq_none (by simp; omega)]
              rfl
        · intro p hp hpr
          simp only [List.length_append, List.length_singleton]
          rw [hgh p hp hpr, hghost p, if_neg (by omega)]
          simp
      · have hos : o'.1 < size := hlt o' (List.mem_of_getElem? ho)
        refine ⟨{ st with ghosts := st.ghosts.set o'.1 (ghostList o'.1 (od.take pre.length) ++
            [(pre.length, o'.2.1, o'.2.2.1, o'.2.2.2)]) }, ?_,
            ⟨pre.length + 1, by omega, hpre', by simp⟩, ?_, ?_, by simp [hgl], ?_⟩
        · unfold numStep
          simp only [hr, if_false, hgh o'.1 hos hr, Option.bind_eq_bind, Option.bind_some]
        · simp only [List.length_append, List.length_singleton]
          rw [hdof, htake]
          simp [ownedCount, hr]
        · simp only [List.length_append, List.length_singleton]
          rw [hglob]
          apply List.map_congr_left
          intro j _
          by_cases h1 : j < pre.length
          · rw [if_pos h1, if_pos (by omega)]
          · by_cases h2 : j = pre.length
            · subst h2; rw [if_neg h1, if_pos (by omega)]; simp [numOf, ho, hr]
            · rw [if_neg h1, if_neg (by omega)]
        · intro p hp hpr
          simp only [List.length_append, List.length_singleton]
          rw [hghost p]
          by_cases h : o'.1 = p
          · subst h
            rw [if_pos rfl, List.getElem?_set_self (by omega)]
          · rw [if_neg h, List.getElem?_set_ne h, hgh p hp hpr]
            simp)
  obtain ⟨st, hst, _, h1, h2, h3, h4⟩ := hloop
  simp only [List.length_zipIdx, List.take_length] at h1 h2 h4
  refine ⟨st, hst, h1, ?_, h3, h4⟩
  rw [h2]
  apply List.map_congr_left
  intro j hj
  rw [if_pos (by simpa using hj)]

end Bempp
