import Verif.Proofs.Network
import Verif.Proofs.Number
import Verif.Proofs.AssignDofs
import Verif.Spec.Distributed
/-
The trace of `FunctionSpace::new` on every process of a distributed grid.
-/
namespace Bempp
open FunctionSpace

theorem runs_forM {β : Type} (f : β → Prog Unit) (tr : β → Trace) :
    ∀ l : List β, (∀ p ∈ l, Runs (f p) (tr p) ()) → Runs (l.forM f) (l.flatMap tr) ()
  | [], _ => .done ()
  | a :: l, h => by
    rw [List.flatMap_cons]
    exact (h a (by simp)).bind (runs_forM f tr l fun p hp => h p (by simp [hp]))

theorem runs_foldlM {α β : Type} (f : α → β → Prog α) (tr : β → Trace) (l : List β)
    (st : List β → α)
    (h : ∀ pre x post, l = pre ++ x :: post → Runs (f (st pre) x) (tr x) (st (pre ++ [x]))) :
    Runs (l.foldlM f (st [])) (l.flatMap tr) (st l) := by
  have key : ∀ post pre, l = pre ++ post →
      Runs (post.foldlM f (st pre)) (post.flatMap tr) (st l) := by
    intro post
    induction post with
    | nil => intro pre h; simp at h; subst h; exact .done _
    | cons x post ih =>
      intro pre hl
      rw [List.flatMap_cons]
      exact (h pre x post hl).bind (ih (pre ++ [x]) (by simp [hl]))
  exact key l [] rfl

theorem mapM_some {α β : Type} (f : α → Option β) (g : α → β) :
    ∀ l : List α, (∀ x ∈ l, f x = some (g x)) → l.mapM f = some (l.map g)
  | [], _ => rfl
  | a :: l, h => by
    rw [List.mapM_cons, h a (by simp), mapM_some f g l fun x hx => h x (by simp [hx])]
    rfl

theorem flatMap_single {β γ : Type} [DecidableEq β] (g : β → List γ) (d : β) :
    ∀ l : List β, l.Nodup → (∀ p ∈ l, p ≠ d → g p = []) →
      l.flatMap g = if d ∈ l then g d else []
  | [], _, _ => by simp
  | a :: l, hn, h => by
    rw [List.nodup_cons] at hn
    rw [List.flatMap_cons, flatMap_single g d l hn.2 fun p hp => h p (by simp [hp])]
    by_cases ha : a = d
    · subst ha; simp [hn.1]
    · have ha' : d ≠ a := fun h => ha h.symm
      rw [h a (by simp) ha]
      simp [ha']

theorem map_range_set {β : Type} (n i : Nat) (f : Nat → β) (v : β) :
    ((List.range n).map f).set i v = (List.range n).map fun j => if j = i then v else f j := by
  apply List.ext_getElem?
  intro j
  rw [List.getElem?_set, List.getElem?_map, List.getElem?_map]
  by_cases hj : j < n
  · rw [List.getElem?_range hj]
    by_cases h : i = j
    · subst h; simp [hj]
    · simp [h, Ne.symm h]
  · rw [List.getElem?_eq_none (by simpa using hj)]
    by_cases h : i = j
    · subst h; simp [hj]
    · simp [h]

/-- An entity of a grid carries `nd` DOFs. -/
theorem ent_length {rank : Nat} {g : Grid} {fam : CellType → ElementDofs} {nd : Nat → Nat → Nat}
    {dm : DofState} (wf : g.WF) (fo : FamilyOn g fam nd) (inv : DofInv rank g nd (allVisits g fam) dm)
    {d e : Nat} (hd : d ≤ 2) (he : e < g.count d) :
    ∃ m, dm.ent d e = some m ∧ m.length = nd d e := by
  obtain ⟨c, hc, hce⟩ := wf.covered d hd e he
  obtain ⟨i, hi⟩ := List.getElem?_of_mem hce
  have hdef := (fo.elem _ (wf.types c hc)).defined d hd i (by
    rw [← wf.sub_length c hc d hd]; exact (List.getElem?_eq_some_iff.mp hi).1)
  obtain ⟨l, hl⟩ := Option.isSome_iff_exists.mp hdef
  have hv : (⟨c.localIndex, fam c.entityType, d, i, e⟩ : Visit) ∈ allVisits g fam :=
    List.mem_flatMap.mpr ⟨c, hc, mem_visitsOf.mpr ⟨rfl, rfl, hd, hi⟩⟩
  obtain ⟨m, h1, h2, _⟩ := inv.done _ hv l hl
  exact ⟨m, h1, by rw [h2]; exact fo.count c hc d hd i e hi l hl⟩

theorem ent_valid {rank : Nat} {g : Grid} {nd : Nat → Nat → Nat} {dm : DofState} {V : List Visit}
    (inv : DofInv rank g nd V dm) {d e : Nat} {l : List Nat} (h : dm.ent d e = some l) :
    d ≤ 2 ∧ e < g.count d := by
  unfold DofState.ent at h
  rw [Option.bind_eq_some_iff] at h
  obtain ⟨Y, hY, hYl⟩ := h
  have h4 := (List.getElem?_eq_some_iff.mp hY).1
  rw [inv.shape0] at h4
  by_cases h5 : d ≤ 2
  · obtain ⟨X, hX, hXl⟩ := inv.shape d h5
    rw [hX] at hY; cases hY
    exact ⟨h5, by rw [← hXl]; exact (List.getElem?_eq_some_iff.mp hYl).1⟩
  · have : d = 3 := by omega
    rw [this, inv.shape3] at hY
    cases hY
    simp at hYl

section
variable (n : Nat) (D : Nat → DofState)

/-- First global number of process `r`. -/
def offs (r : Nat) : Nat := ((List.range r).map fun p => ownedCount p (D p).ownerData).sum

/-- Local number on process `p` of DOF `k` of entity `(d, e)` of `p`. -/
def lookupDof (p d e k : Nat) : Nat := (((D p).ent d e).bind (·[k]?)).getD 0

/-- Global number that process `p` gives to its DOF `l`. -/
def num (p l : Nat) : Nat := numOf p (offs D p) (D p).ownerData l

/-- Requests of process `q` to process `p`. -/
def gh (q p : Nat) : List (Nat × Nat × Nat × Nat) := ghostList p (D q).ownerData

def locAns (q p : Nat) : List Nat := (gh D q p).map fun x => lookupDof D p x.2.1 x.2.2.1 x.2.2.2

def gloAns (q p : Nat) : List Nat := (locAns D q p).map (num D p)

/-- The actions of process `r`, phase by phase. -/
def trOffRecv (r : Nat) : Trace := if r = 0 then [] else [(.recv (r - 1) [offs D r], 2 * r)]
def trOffSend (r : Nat) : Trace :=
  if r + 1 < n then [(.send (r + 1) [offs D (r + 1)], 2 * r + 1)] else []
def trSize (r : Nat) : Trace :=
  if r + 1 = n then (List.range r).flatMap fun p => [(.send p [offs D n], 2 * n)]
  else [(.recv (n - 1) [offs D n], 2 * n + 1)]
def trReq (r p : Nat) : Trace :=
  [(.send p ((gh D r p).map fun x => x.2.1), 2 * n + 2),
   (.send p ((gh D r p).map fun x => x.2.2.1), 2 * n + 2),
   (.send p ((gh D r p).map fun x => x.2.2.2), 2 * n + 2)]
def trAns (r p : Nat) : Trace :=
  [(.recv p ((gh D p r).map fun x => x.2.1), 2 * n + 3),
   (.recv p ((gh D p r).map fun x => x.2.2.1), 2 * n + 3),
   (.recv p ((gh D p r).map fun x => x.2.2.2), 2 * n + 3),
   (.send p (locAns D p r), 2 * n + 3),
   (.send p (gloAns D p r), 2 * n + 3)]
def trRep (r p : Nat) : Trace :=
  [(.recv p (locAns D r p), 2 * n + 4), (.recv p (gloAns D r p), 2 * n + 4)]

def traceOf (r : Nat) : Trace :=
  trOffRecv D r ++ (trOffSend n D r ++ (trSize n D r ++ ((others r n).flatMap (trReq n D r) ++
    ((others r n).flatMap (trAns n D r) ++ (others r n).flatMap (trRep n D r)))))

theorem mem_others {r n p : Nat} : p ∈ others r n ↔ p < n ∧ p ≠ r := by simp [others]

theorem others_nodup (r n : Nat) : (others r n).Nodup := List.nodup_range.filter _

theorem sendsTo_flatMap {β : Type} (d : Nat) (l : List β) (f : β → Trace) :
    sendsTo d (l.flatMap f) = l.flatMap fun p => sendsTo d (f p) := by
  unfold sendsTo; rw [List.filterMap_flatMap]

theorem recvsFrom_flatMap {β : Type} (d : Nat) (l : List β) (f : β → Trace) :
    recvsFrom d (l.flatMap f) = l.flatMap fun p => recvsFrom d (f p) := by
  unfold recvsFrom; rw [List.filterMap_flatMap]

theorem sendsTo_traceOf {s d : Nat} (hs : s < n) (hd : d < n) :
    sendsTo d (traceOf n D s) =
      (if d = s + 1 then [([offs D (s + 1)], 2 * s + 1)] else []) ++
      ((if s + 1 = n ∧ d < s then [([offs D n], 2 * n)] else []) ++
      (if s = d then [] else
        [((gh D s d).map (fun x => x.2.1), 2 * n + 2), ((gh D s d).map (fun x => x.2.2.1), 2 * n + 2),
         ((gh D s d).map (fun x => x.2.2.2), 2 * n + 2),
         (locAns D d s, 2 * n + 3), (gloAns D d s, 2 * n + 3)])) := by
  unfold traceOf
  simp only [sendsTo_append]
  have h1 : sendsTo d (trOffRecv D s) = [] := by
    unfold trOffRecv; split <;> simp [sendsTo]
  have h2 : sendsTo d (trOffSend n D s) =
      if d = s + 1 then [([offs D (s + 1)], 2 * s + 1)] else [] := by
    unfold trOffSend
    by_cases h : s + 1 < n
    · by_cases h' : d = s + 1
      · subst h'; simp [sendsTo, h]
      · have : s + 1 ≠ d := fun hh => h' hh.symm
        simp [sendsTo, h, h', this]
    · rw [if_neg h, if_neg (by omega)]; rfl
  have h3 : sendsTo d (trSize n D s) = if s + 1 = n ∧ d < s then [([offs D n], 2 * n)] else [] := by
    unfold trSize
    by_cases h : s + 1 = n
    · rw [if_pos h, sendsTo_flatMap, flatMap_single _ d _ List.nodup_range]
      · simp [sendsTo, h]
      · intro p _ hp; simp [sendsTo, hp]
    · rw [if_neg h, if_neg (by tauto)]; simp [sendsTo]
  have h4 : sendsTo d ((others s n).flatMap (trReq n D s)) = if s = d then [] else
      sendsTo d (trReq n D s d) := by
    rw [sendsTo_flatMap, flatMap_single _ d _ (others_nodup s n)]
    · by_cases h : s = d
      · simp [mem_others, h]
      · rw [if_pos (mem_others.mpr ⟨hd, fun hh => h hh.symm⟩), if_neg h]
    · intro p _ hp; simp [sendsTo, trReq, hp]
  have h5 : sendsTo d ((others s n).flatMap (trAns n D s)) = if s = d then [] else
      sendsTo d (trAns n D s d) := by
    rw [sendsTo_flatMap, flatMap_single _ d _ (others_nodup s n)]
    · by_cases h : s = d
      · simp [mem_others, h]
      · rw [if_pos (mem_others.mpr ⟨hd, fun hh => h hh.symm⟩), if_neg h]
    · intro p _ hp; simp [sendsTo, trAns, hp]
  have h6 : sendsTo d ((others s n).flatMap (trRep n D s)) = [] := by
    rw [sendsTo_flatMap]
    simp [sendsTo, trRep]
  rw [h1, h2, h3, h4, h5, h6]
  by_cases h : s = d
  · simp [h]
  · simp [h, sendsTo, trReq, trAns]

theorem recvsFrom_traceOf {s d : Nat} (hs : s < n) (hd : d < n) :
    recvsFrom s (traceOf n D d) =
      (if d = s + 1 then [([offs D (s + 1)], 2 * d)] else []) ++
      ((if s + 1 = n ∧ d < s then [([offs D n], 2 * n + 1)] else []) ++
      (if s = d then [] else
        [((gh D s d).map (fun x => x.2.1), 2 * n + 3), ((gh D s d).map (fun x => x.2.2.1), 2 * n + 3),
         ((gh D s d).map (fun x => x.2.2.2), 2 * n + 3),
         (locAns D d s, 2 * n + 4), (gloAns D d s, 2 * n + 4)])) := by
  unfold traceOf
  simp only [recvsFrom_append]
  have h1 : recvsFrom s (trOffRecv D d) =
      if d = s + 1 then [([offs D (s + 1)], 2 * d)] else [] := by
    unfold trOffRecv
    by_cases h : d = 0
    · subst h; simp [recvsFrom]
    · by_cases h' : d = s + 1
      · subst h'; simp [recvsFrom]
      · have : d - 1 ≠ s := by omega
        simp [recvsFrom, h, h', this]
  have h2 : recvsFrom s (trOffSend n D d) = [] := by
    unfold trOffSend; split <;> simp [recvsFrom]
  have h3 : recvsFrom s (trSize n D d) =
      if s + 1 = n ∧ d < s then [([offs D n], 2 * n + 1)] else [] := by
    unfold trSize
    by_cases h : d + 1 = n
    · rw [if_pos h, if_neg (by omega), recvsFrom_flatMap]
      simp [recvsFrom]
    · rw [if_neg h]
      by_cases h' : n - 1 = s
      · rw [if_pos (by omega)]; simp [recvsFrom, h']
      · rw [if_neg (by omega)]; simp [recvsFrom, h']
  have h4 : recvsFrom s ((others d n).flatMap (trReq n D d)) = [] := by
    rw [recvsFrom_flatMap]; simp [recvsFrom, trReq]
  have h5 : recvsFrom s ((others d n).flatMap (trAns n D d)) = if s = d then [] else
      recvsFrom s (trAns n D d s) := by
    rw [recvsFrom_flatMap, flatMap_single _ s _ (others_nodup d n)]
    · by_cases h : s = d
      · simp [mem_others, h]
      · rw [if_pos (mem_others.mpr ⟨hs, h⟩), if_neg h]
    · intro p _ hp; simp [recvsFrom, trAns, hp]
  have h6 : recvsFrom s ((others d n).flatMap (trRep n D d)) = if s = d then [] else
      recvsFrom s (trRep n D d s) := by
    rw [recvsFrom_flatMap, flatMap_single _ s _ (others_nodup d n)]
    · by_cases h : s = d
      · simp [mem_others, h]
      · rw [if_pos (mem_others.mpr ⟨hs, h⟩), if_neg h]
    · intro p _ hp; simp [recvsFrom, trRep, hp]
  rw [h1, h2, h3, h4, h5, h6]
  by_cases h : s = d
  · simp [h]
  · simp [h, recvsFrom, trAns, trRep]

/-- Time stamps of the phases. -/
theorem mem_trace {r : Nat} (hr : r < n) :
    (∀ x ∈ trOffRecv D r, x.2 = 2 * r ∧ ∃ s m, x.1 = .recv s m ∧ s < n) ∧
    (∀ x ∈ trOffSend n D r, x.2 = 2 * r + 1 ∧ ∃ s m, x.1 = .send s m ∧ s < n) ∧
    (∀ x ∈ trSize n D r, (x.2 = 2 * n ∨ x.2 = 2 * n + 1) ∧
      ((∃ s m, x.1 = .send s m ∧ s < n) ∨ ∃ s m, x.1 = .recv s m ∧ s < n)) ∧
    (∀ x ∈ (others r n).flatMap (trReq n D r), x.2 = 2 * n + 2 ∧ ∃ s m, x.1 = .send s m ∧ s < n) ∧
    (∀ x ∈ (others r n).flatMap (trAns n D r), x.2 = 2 * n + 3 ∧
      ((∃ s m, x.1 = .send s m ∧ s < n) ∨ ∃ s m, x.1 = .recv s m ∧ s < n)) ∧
    (∀ x ∈ (others r n).flatMap (trRep n D r), x.2 = 2 * n + 4 ∧
      ∃ s m, x.1 = .recv s m ∧ s < n) := by
  refine ⟨?_, ?_, ?_, ?_, ?_, ?_⟩
  · intro x hx
    unfold trOffRecv at hx
    split at hx
    · simp at hx
    · simp at hx; subst hx; exact ⟨rfl, _, _, rfl, by omega⟩
  · intro x hx
    unfold trOffSend at hx
    split at hx
    · simp at hx; subst hx; exact ⟨rfl, _, _, rfl, by omega⟩
    · simp at hx
  · intro x hx
    unfold trSize at hx
    split at hx
    · simp only [List.mem_flatMap, List.mem_range, List.mem_singleton] at hx
      obtain ⟨p, hp, rfl⟩ := hx
      exact ⟨Or.inl rfl, Or.inl ⟨_, _, rfl, by omega⟩⟩
    · simp at hx; subst hx; exact ⟨Or.inr rfl, Or.inr ⟨_, _, rfl, by omega⟩⟩
  · intro x hx
    obtain ⟨p, hp, hx⟩ := List.mem_flatMap.mp hx
    have hp := (mem_others.mp hp).1
    simp only [trReq, List.mem_cons, List.not_mem_nil, or_false] at hx
    rcases hx with rfl | rfl | rfl <;> exact ⟨rfl, _, _, rfl, hp⟩
  · intro x hx
    obtain ⟨p, hp, hx⟩ := List.mem_flatMap.mp hx
    have hp := (mem_others.mp hp).1
    simp only [trAns, List.mem_cons, List.not_mem_nil, or_false] at hx
    rcases hx with rfl | rfl | rfl | rfl | rfl
    · exact ⟨rfl, Or.inr ⟨_, _, rfl, hp⟩⟩
    · exact ⟨rfl, Or.inr ⟨_, _, rfl, hp⟩⟩
    · exact ⟨rfl, Or.inr ⟨_, _, rfl, hp⟩⟩
    · exact ⟨rfl, Or.inl ⟨_, _, rfl, hp⟩⟩
    · exact ⟨rfl, Or.inl ⟨_, _, rfl, hp⟩⟩
  · intro x hx
    obtain ⟨p, hp, hx⟩ := List.mem_flatMap.mp hx
    have hp := (mem_others.mp hp).1
    simp only [trRep, List.mem_cons, List.not_mem_nil, or_false] at hx
    rcases hx with rfl | rfl <;> exact ⟨rfl, _, _, rfl, hp⟩

theorem pairwise_const {l : Trace} {τ : Nat} (h : ∀ x ∈ l, x.2 = τ) :
    l.Pairwise fun x y => x.2 ≤ y.2 := by
  induction l with
  | nil => exact .nil
  | cons a l ih =>
    rw [List.pairwise_cons]
    refine ⟨fun b hb => ?_, ih fun x hx => h x (by simp [hx])⟩
    rw [h a (by simp), h b (by simp [hb])]

theorem traceOf_matching : Matching n (traceOf n D) where
  dst := by
    intro r hr d m τ hx
    obtain ⟨h1, h2, h3, h4, h5, h6⟩ := mem_trace n D hr
    simp only [traceOf, List.mem_append] at hx
    have hs : ∀ {a : Act × Nat}, (∃ s m, a.1 = .send s m ∧ s < n) → ∀ d m, a.1 = .send d m → d < n := by
      rintro a ⟨s, m, h, hs⟩ d m' h'
      rw [h] at h'; cases h'; exact hs
    have hno : ∀ {a : Act × Nat}, (∃ s m, a.1 = .recv s m ∧ s < n) → ∀ d m, a.1 = .send d m → d < n := by
      rintro a ⟨s, m, h, hs⟩ d m' h'
      rw [h] at h'; cases h'
    rcases hx with h | h | h | h | h | h
    · exact hno (h1 _ h).2 d m rfl
    · exact hs (h2 _ h).2 d m rfl
    · rcases (h3 _ h).2 with h | h
      · exact hs h d m rfl
      · exact hno h d m rfl
    · exact hs (h4 _ h).2 d m rfl
    · rcases (h5 _ h).2 with h | h
      · exact hs h d m rfl
      · exact hno h d m rfl
    · exact hno (h6 _ h).2 d m rfl
  src := by
    intro r hr d m τ hx
    obtain ⟨h1, h2, h3, h4, h5, h6⟩ := mem_trace n D hr
    simp only [traceOf, List.mem_append] at hx
    have hs : ∀ {a : Act × Nat}, (∃ s m, a.1 = .send s m ∧ s < n) → ∀ d m, a.1 = .recv d m → d < n := by
      rintro a ⟨s, m, h, hs⟩ d m' h'
      rw [h] at h'; cases h'
    have hno : ∀ {a : Act × Nat}, (∃ s m, a.1 = .recv s m ∧ s < n) → ∀ d m, a.1 = .recv d m → d < n := by
      rintro a ⟨s, m, h, hs⟩ d m' h'
      rw [h] at h'; cases h'; exact hs
    rcases hx with h | h | h | h | h | h
    · exact hno (h1 _ h).2 d m rfl
    · exact hs (h2 _ h).2 d m rfl
    · rcases (h3 _ h).2 with h | h
      · exact hs h d m rfl
      · exact hno h d m rfl
    · exact hs (h4 _ h).2 d m rfl
    · rcases (h5 _ h).2 with h | h
      · exact hs h d m rfl
      · exact hno h d m rfl
    · exact hno (h6 _ h).2 d m rfl
  chan := by
    intro s d hs hd
    rw [sendsTo_traceOf n D hs hd, recvsFrom_traceOf n D hs hd]
    apply List.rel_append
    · by_cases h : d = s + 1
      · simp only [h, if_true]
        exact .cons ⟨rfl, by simp only; omega⟩ .nil
      · simp only [h, if_false]; exact .nil
    apply List.rel_append
    · by_cases h : s + 1 = n ∧ d < s
      · simp only [h]
        exact .cons ⟨rfl, by simp only; omega⟩ .nil
      · simp only [h, if_false]; exact .nil
    by_cases h : s = d
    · simp only [h, if_true]; exact .nil
    · simp only [h, if_false]
      repeat' first
        | exact List.Forall₂.nil
        | refine List.Forall₂.cons ⟨rfl, by simp only; omega⟩ ?_
  sorted := by
    intro r hr
    obtain ⟨h1, h2, h3, h4, h5, h6⟩ := mem_trace n D hr
    unfold traceOf
    rw [List.pairwise_append]
    refine ⟨pairwise_const fun x hx => (h1 x hx).1, ?_, ?_⟩
    · rw [List.pairwise_append]
      refine ⟨pairwise_const fun x hx => (h2 x hx).1, ?_, ?_⟩
      · rw [List.pairwise_append]
        refine ⟨?_, ?_, ?_⟩
        · unfold trSize
          split
          · apply pairwise_const (τ := 2 * n)
            intro x hx
            simp only [List.mem_flatMap, List.mem_range, List.mem_singleton] at hx
            obtain ⟨p, _, rfl⟩ := hx; rfl
          · exact List.pairwise_singleton _ _
        · rw [List.pairwise_append]
          refine ⟨pairwise_const fun x hx => (h4 x hx).1, ?_, ?_⟩
          · rw [List.pairwise_append]
            refine ⟨pairwise_const fun x hx => (h5 x hx).1, pairwise_const fun x hx => (h6 x hx).1, ?_⟩
            intro x hx y hy
            rw [(h5 x hx).1, (h6 y hy).1]; omega
          · intro x hx y hy
            rw [(h4 x hx).1]
            rcases List.mem_append.mp hy with hy | hy
            · rw [(h5 y hy).1]; omega
            · rw [(h6 y hy).1]; omega
        · intro x hx y hy
          have := (h3 x hx).1
          simp only [List.mem_append] at hy
          rcases hy with hy | hy | hy
          · rw [(h4 y hy).1]; omega
          · rw [(h5 y hy).1]; omega
          · rw [(h6 y hy).1]; omega
      · intro x hx y hy
        rw [(h2 x hx).1]
        simp only [List.mem_append] at hy
        rcases hy with hy | hy | hy | hy
        · have := (h3 y hy).1; omega
        · rw [(h4 y hy).1]; omega
        · rw [(h5 y hy).1]; omega
        · rw [(h6 y hy).1]; omega
    · intro x hx y hy
      rw [(h1 x hx).1]
      simp only [List.mem_append] at hy
      rcases hy with hy | hy | hy | hy | hy
      · rw [(h2 y hy).1]; omega
      · have := (h3 y hy).1; omega
      · rw [(h4 y hy).1]; omega
      · rw [(h5 y hy).1]; omega
      · rw [(h6 y hy).1]; omega

end
end Bempp
