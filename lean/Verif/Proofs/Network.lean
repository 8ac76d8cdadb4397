import Verif.Model.Mpi
import Mathlib.Data.List.Nodup
import Mathlib.Data.Nat.Find
import Mathlib.Algebra.BigOperators.Group.List.Basic
/-
A general theorem about message-passing programs with in-order channels: if every program follows a
fixed trace, and the traces match and carry consistent time stamps, then every execution is a prefix of
the traces, never gets stuck, and ends with the same results.
-/
namespace Bempp

/-- A communication action with its message. -/
inductive Act where
  | send (d : Nat) (m : Msg)
  | recv (s : Nat) (m : Msg)
deriving DecidableEq

/-- A trace with time stamps. -/
abbrev Trace := List (Act × Nat)

/-- `Runs p t a`: program `p` performs exactly the actions of `t` and then returns `a`. -/
inductive Runs {α : Type} : Prog α → Trace → α → Prop
  | done (a : α) : Runs (.done a) [] a
  | send {d : Nat} {m : Msg} {k : Prog α} {t : Trace} {a : α} {τ : Nat} :
      Runs k t a → Runs (.send d m k) ((.send d m, τ) :: t) a
  | recv {s : Nat} {m : Msg} {k : Msg → Prog α} {t : Trace} {a : α} {τ : Nat} :
      Runs (k m) t a → Runs (.recv s k) ((.recv s m, τ) :: t) a

theorem Runs.bind {α β : Type} {p : Prog α} {t : Trace} {a : α} {f : α → Prog β} {u : Trace} {b : β}
    (h : Runs p t a) (h' : Runs (f a) u b) : Runs (p >>= f) (t ++ u) b := by
  change Runs (p.bind f) (t ++ u) b
  induction h with
  | done a => exact h'
  | send _ ih => exact .send (ih h')
  | recv _ ih => exact .recv (ih h')

theorem Runs.lift {α : Type} {o : Option α} {a : α} (h : o = some a) : Runs (Prog.lift o) [] a := by
  subst h; exact .done a

/-- Messages (with time stamps) sent to `d`. -/
def sendsTo (d : Nat) (t : Trace) : List (Msg × Nat) :=
  t.filterMap fun x => match x.1 with
    | .send d' m => if d' = d then some (m, x.2) else none
    | .recv _ _ => none

/-- Messages (with time stamps) received from `s`. -/
def recvsFrom (s : Nat) (t : Trace) : List (Msg × Nat) :=
  t.filterMap fun x => match x.1 with
    | .send _ _ => none
    | .recv s' m => if s' = s then some (m, x.2) else none

theorem sendsTo_append (d : Nat) (t u : Trace) : sendsTo d (t ++ u) = sendsTo d t ++ sendsTo d u := by
  simp [sendsTo]

theorem recvsFrom_append (d : Nat) (t u : Trace) :
    recvsFrom d (t ++ u) = recvsFrom d t ++ recvsFrom d u := by
  simp [recvsFrom]

/-- The traces of `n` processes match: the messages sent along each channel are the ones received, in
order, each received later than it was sent; time does not run backwards within a process. -/
structure Matching (n : Nat) (T : Nat → Trace) : Prop where
  dst : ∀ r, r < n → ∀ d m τ, (Act.send d m, τ) ∈ T r → d < n
  src : ∀ r, r < n → ∀ s m τ, (Act.recv s m, τ) ∈ T r → s < n
  chan : ∀ s d, s < n → d < n →
    List.Forall₂ (fun x y => x.1 = y.1 ∧ x.2 < y.2) (sendsTo d (T s)) (recvsFrom s (T d))
  sorted : ∀ r, r < n → (T r).Pairwise fun x y => x.2 ≤ y.2

/-- The state of an execution: process `r` has done `pre r` and still has to do `suf r`. -/
structure NetInv {α : Type} (n : Nat) (T : Nat → Trace) (res : Nat → α) (c : Config α)
    (pre suf : Nat → Trace) : Prop where
  split : ∀ r, r < n → T r = pre r ++ suf r
  runs : ∀ r, r < n → Runs (c.prog r) (suf r) (res r)
  chan : ∀ s d, s < n → d < n →
    (sendsTo d (pre s)).map Prod.fst = (recvsFrom s (pre d)).map Prod.fst ++ c.chan s d

variable {α : Type} {n : Nat} {T : Nat → Trace} {res : Nat → α}

theorem forall2_map_fst {l l' : List (Msg × Nat)}
    (h : List.Forall₂ (fun x y => x.1 = y.1 ∧ x.2 < y.2) l l') : l.map Prod.fst = l'.map Prod.fst := by
  induction h with
  | nil => rfl
  | cons h _ ih => simp [h.1, ih]

/-- Total number of performed actions. -/
def doneCount (n : Nat) (pre : Nat → Trace) : Nat := ((List.range n).map fun r => (pre r).length).sum

theorem doneCount_update (n : Nat) (pre : Nat → Trace) (r : Nat) (hr : r < n) (x : Act × Nat) :
    doneCount n (fun q => if q = r then pre q ++ [x] else pre q) = doneCount n pre + 1 := by
  unfold doneCount
  have : ∀ l : List Nat, l.Nodup → r ∈ l →
      (l.map fun q => (if q = r then pre q ++ [x] else pre q).length).sum =
        (l.map fun q => (pre q).length).sum + 1 := by
    intro l hn hm
    induction l with
    | nil => simp at hm
    | cons a l ih =>
      rw [List.nodup_cons] at hn
      simp only [List.map_cons, List.sum_cons]
      by_cases ha : a = r
      · subst ha
        have h2 : (l.map fun q => (if q = a then pre q ++ [x] else pre q).length) =
            l.map fun q => (pre q).length := by
          apply List.map_congr_left
          intro q hq
          have : q ≠ a := fun h => hn.1 (h ▸ hq)
          simp [this]
        rw [h2]
        simp; omega
      · have := ih hn.2 (by simpa [Ne.symm ha] using hm)
        rw [this]
        simp [ha]; omega
  exact this _ List.nodup_range (by simpa using hr)

/-- What a send does. -/
theorem net_send {c : Config α} {pre suf : Nat → Trace} (inv : NetInv n T res c pre suf) {r d : Nat} {m : Msg} {k : Prog α}
    (hr : r < n) (hp : c.prog r = .send d m k) :
    ∃ τ rest, suf r = (.send d m, τ) :: rest ∧
      NetInv n T res ⟨c.setProg r k, c.setChan r d (c.chan r d ++ [m])⟩
        (fun q => if q = r then pre q ++ [(.send d m, τ)] else pre q) (fun q => if q = r then rest else suf q) := by
  have hrun := inv.runs r hr
  rw [hp] at hrun
  cases hsuf : suf r with
  | nil => rw [hsuf] at hrun; cases hrun
  | cons x rest =>
  rw [hsuf] at hrun
  cases hrun with
  | @send _ _ _ _ _ τ hrun =>
  refine ⟨τ, rest, rfl, ?_, ?_, ?_⟩
  · intro q hq
    by_cases h : q = r
    · subst h; simp [inv.split q hq, hsuf]
    · simp [h, inv.split q hq]
  · intro q hq
    simp only [Config.setProg]
    by_cases h : q = r
    · subst h; simpa using hrun
    · simpa [h] using inv.runs q hq
  · intro s q hs hq
    have hold := inv.chan s q hs hq
    have hrec : recvsFrom s (if q = r then pre q ++ [(Act.send d m, τ)] else pre q) =
        recvsFrom s (pre q) := by
      split
      · rw [recvsFrom_append]; simp [recvsFrom]
      · rfl
    rw [hrec]
    simp only [Config.setChan]
    by_cases h : s = r
    · subst h
      simp only [if_true, true_and]
      rw [sendsTo_append, List.map_append, hold]
      by_cases h2 : q = d
      · subst h2; simp [sendsTo]
      · have h2' : d ≠ q := fun hh => h2 hh.symm
        simp [sendsTo, h2, h2']
    · simp only [h, if_false, false_and]
      exact hold

/-- What a receive does. -/
theorem net_recv (hM : Matching n T) {c : Config α} {pre suf : Nat → Trace} (inv : NetInv n T res c pre suf) {r s : Nat}
    {m : Msg} {rest : List Msg} {k : Msg → Prog α} (hr : r < n) (hp : c.prog r = .recv s k) (hc : c.chan s r = m :: rest) :
    ∃ τ rest', suf r = (.recv s m, τ) :: rest' ∧
      NetInv n T res ⟨c.setProg r (k m), c.setChan s r rest⟩
        (fun q => if q = r then pre q ++ [(.recv s m, τ)] else pre q) (fun q => if q = r then rest' else suf q) := by
  have hrun := inv.runs r hr
  rw [hp] at hrun
  cases hsuf : suf r with
  | nil => rw [hsuf] at hrun; cases hrun
  | cons x rest' =>
  rw [hsuf] at hrun
  cases hrun with
  | @recv _ m' _ _ _ τ hrun =>
  -- the message at the head of the channel is the expected one
  have hs : s < n := hM.src r hr s m' τ (by rw [inv.split r hr, hsuf]; simp)
  have hchan := inv.chan s r hs hr
  have hall := forall2_map_fst (hM.chan s r hs hr)
  rw [inv.split s hs, inv.split r hr, hsuf, sendsTo_append, recvsFrom_append, List.map_append,
    List.map_append, hchan, List.append_assoc] at hall
  have hall := List.append_cancel_left hall
  rw [hc] at hall
  simp only [recvsFrom, List.filterMap_cons, if_true, List.map_cons, List.cons_append,
    List.cons.injEq] at hall
  have hm : m = m' := hall.1
  subst hm
  refine ⟨τ, rest', rfl, ?_, ?_, ?_⟩
  · intro q hq
    by_cases h : q = r
    · subst h; simp [inv.split q hq, hsuf]
    · simp [h, inv.split q hq]
  · intro q hq
    simp only [Config.setProg]
    by_cases h : q = r
    · subst h; simpa using hrun
    · simpa [h] using inv.runs q hq
  · intro s' q hs' hq
    have hold := inv.chan s' q hs' hq
    have hsend : sendsTo q (if s' = r then pre s' ++ [(Act.recv s m, τ)] else pre s') =
        sendsTo q (pre s') := by
      split
      · rw [sendsTo_append]; simp [sendsTo]
      · rfl
    rw [hsend]
    simp only [Config.setChan]
    by_cases h : q = r
    · subst h
      simp only [if_true, and_true]
      rw [recvsFrom_append, List.map_append, hold]
      by_cases h2 : s' = s
      · subst h2; simp [recvsFrom, hc]
      · have h2' : s ≠ s' := fun hh => h2 hh.symm
        simp [recvsFrom, h2, h2']
    · simp only [h, if_false, and_false]
      exact hold

theorem net_step (hM : Matching n T) {c c' : Config α} {pre suf : Nat → Trace}
    (inv : NetInv n T res c pre suf) (h : Config.Step n c c') :
    ∃ pre' suf', NetInv n T res c' pre' suf' ∧ doneCount n pre' = doneCount n pre + 1 := by
  cases h with
  | send r d m k hr hp =>
    obtain ⟨τ, rest, _, h⟩ := net_send inv hr hp
    exact ⟨_, _, h, doneCount_update n pre r hr _⟩
  | recv r s m rest k hr hp hc =>
    obtain ⟨τ, rest', _, h⟩ := net_recv hM inv hr hp hc
    exact ⟨_, _, h, doneCount_update n pre r hr _⟩

/-- Every reachable configuration is a prefix of the traces. -/
theorem net_reach (hM : Matching n T) {P : Nat → Prog α} (hP : ∀ r, r < n → Runs (P r) (T r) (res r))
    {k : Nat} {c c0 : Config α} (h : Config.Reach (Config.Step n) k c0 c) (h0 : c0 = Config.init P) :
    ∃ pre suf, NetInv n T res c pre suf ∧ doneCount n pre = k := by
  induction h with
  | refl c =>
    subst h0
    refine ⟨fun _ => [], T, ⟨fun _ _ => rfl, hP, fun _ _ _ _ => rfl⟩, ?_⟩
    simp [doneCount]
  | tail _ hs ih =>
    obtain ⟨pre, suf, inv, hk⟩ := ih h0
    obtain ⟨pre', suf', inv', hk'⟩ := net_step hM inv hs
    exact ⟨pre', suf', inv', by omega⟩

theorem doneCount_le (pre suf : Nat → Trace) (h : ∀ r, r < n → T r = pre r ++ suf r) :
    doneCount n pre ≤ doneCount n T := by
  unfold doneCount
  have : ∀ l : List Nat, (∀ r ∈ l, r < n) →
      (l.map fun r => (pre r).length).sum ≤ (l.map fun r => (T r).length).sum := by
    intro l hl
    induction l with
    | nil => simp
    | cons a l ih =>
      have h1 := ih fun r hr => hl r (List.mem_cons_of_mem _ hr)
      have h2 := h a (hl a (by simp))
      simp only [List.map_cons, List.sum_cons]
      rw [h2, List.length_append]
      omega
  exact this _ fun r hr => by simpa using hr

/-- An execution that is not finished can continue. -/
theorem net_progress (hM : Matching n T) {c : Config α} {pre suf : Nat → Trace}
    (inv : NetInv n T res c pre suf) :
    (∃ c', Config.Step n c c') ∨ ∀ r, r < n → c.prog r = .done (res r) := by
  by_cases hfin : ∀ r, r < n → suf r = []
  · right
    intro r hr
    have := inv.runs r hr
    rw [hfin r hr] at this
    generalize c.prog r = p at this
    cases this; rfl
  left
  -- a process whose next action has the smallest time stamp
  have hex : ∃ τ, ∃ r, r < n ∧ ∃ x rest, suf r = x :: rest ∧ x.2 = τ := by
    by_contra hno
    apply hfin
    intro r hr
    cases h : suf r with
    | nil => rfl
    | cons x rest => exact absurd ⟨x.2, r, hr, x, rest, h, rfl⟩ hno
  classical
  obtain ⟨r, hr, x, rest, hsuf, hτ⟩ := Nat.find_spec hex
  have hmin : ∀ q, q < n → ∀ y rest', suf q = y :: rest' → x.2 ≤ y.2 := by
    intro q hq y rest' h
    rw [hτ]
    exact Nat.find_le ⟨q, hq, y, rest', h, rfl⟩
  have hrun := inv.runs r hr
  rw [hsuf] at hrun
  generalize hp : c.prog r = p at hrun
  cases hrun with
  | @send d m k _ _ τ _ => exact ⟨_, .send c r d m k hr hp⟩
  | @recv s m k _ _ τ _ =>
    have hs : s < n := hM.src r hr s m τ (by rw [inv.split r hr, hsuf]; simp)
    cases hc : c.chan s r with
    | cons m' rest' => exact ⟨_, .recv c r s m' rest' k hr hp hc⟩
    | nil =>
      exfalso
      have hchan := inv.chan s r hs hr
      rw [hc, List.append_nil] at hchan
      have hlen := congrArg List.length hchan
      simp only [List.length_map] at hlen
      have hF := hM.chan s r hs hr
      rw [inv.split s hs, inv.split r hr, hsuf, sendsTo_append, recvsFrom_append] at hF
      have hF2 := (List.forall₂_iff_get.mp hF)
      obtain ⟨hl, hg⟩ := hF2
      have hpos : (recvsFrom s (pre r)).length <
          (recvsFrom s (pre r) ++ recvsFrom s ((Act.recv s m, τ) :: rest)).length := by
        simp [recvsFrom]
      have := hg (recvsFrom s (pre r)).length (by rw [hl]; exact hpos) hpos
      obtain ⟨_, hlt⟩ := this
      simp only [List.get_eq_getElem] at hlt
      rw [List.getElem_append_right (by omega), List.getElem_append_right (by omega)] at hlt
      simp only [Nat.sub_self] at hlt
      have hr0 : (recvsFrom s ((Act.recv s m, τ) :: rest))[0]'(by simp [recvsFrom]) = (m, τ) := by
        simp [recvsFrom]
      rw [hr0] at hlt
      -- the matching send is still to be done by `s`
      obtain ⟨z, hmem, hzlt⟩ : ∃ z ∈ sendsTo r (suf s), z.2 < τ := ⟨_, List.getElem_mem _, hlt⟩
      obtain ⟨⟨a, τ'⟩, hmem1, hmem2⟩ := List.mem_filterMap.mp hmem
      cases hss : suf s with
      | nil => rw [hss] at hmem1; simp at hmem1
      | cons y rest'' =>
        have h1 := hmin s hs y rest'' hss
        have h2 : y.2 ≤ τ' := by
          have hsrt := hM.sorted s hs
          rw [inv.split s hs, List.pairwise_append] at hsrt
          have hsrt := hsrt.2.1
          rw [hss, List.pairwise_cons] at hsrt
          rw [hss] at hmem1
          rcases List.mem_cons.mp hmem1 with h | h
          · rw [← h]
          · exact hsrt.1 _ h
        have h3 : τ' < τ := by
          cases a with
          | send d' m'' =>
            simp only at hmem2
            split at hmem2
            · cases hmem2; exact hzlt
            · cases hmem2
          | recv _ _ => cases hmem2
        simp only at h1
        omega

end Bempp
