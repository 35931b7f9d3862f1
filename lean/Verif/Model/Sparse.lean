import Verif.Model.Solvers
import Verif.Model.MathH
import Mathlib.Data.List.Basic
import Mathlib.Data.List.Nodup
import Mathlib.Data.List.FinRange
/-!
# Sparse Hessians (solvers/gn.h, lm.h with `H_t = SparseMatrix<Scalar>`, math.h)

The matrices are `SpMat` (Model/MathH): the stored entries, column by column. `SpSq F n` is a sparse matrix of size `n x n` that meets the class
invariant of `Eigen::SparseMatrix`. As in the dense model the user's function keeps the size of the matrix it is given (with
another size `coeffRef(i, i)` would be out of bounds). The number of parameters of a sparse system is always known at run time
only: `params_trait<SparseMatrix>::Dims` is `Dynamic` (traits.h:195-198), whose `SQRT` is `Dynamic`.
-/

namespace Verif
open FloatOps

section
variable {F : Type} [FloatOps F]

/-- `SparseMatrix::coeff(i, j)`: the stored value or 0 -/
def SpMat.coeff (A : SpMat F) (i j : Nat) : F := ((A.col[j]?).bind fun c => findRow c i).getD (ofInt 0)

/-- `coeffRef(i, j)` within one column, followed by an assignment through the reference: a missing entry is inserted with value 0 (the row
indices are sorted), then `v` is replaced by `f v` -/
def colSet (c : SpCol F) (i : Nat) (f : F → F) : SpCol F :=
  if (findRow c i).isSome then c.map fun e => if e.1 = i then (e.1, f e.2) else e
  else (c.takeWhile fun e => decide (e.1 < i)) ++ (i, f (ofInt 0)) :: c.dropWhile fun e => decide (e.1 < i)

/-- `A.coeffRef(i, j) = f(A.coeff(i, j))` -/
def SpMat.update (A : SpMat F) (i j : Nat) (f : F → F) : SpMat F := { A with col := A.col.modify j fun c => colSet c i f }

/-- `for (int i = 0; i < H.rows(); ++i) H.coeffRef(i, i) = f(H.coeff(i, i))`, lm.h:112-117 and 161-166 -/
def SpMat.updateDiag (A : SpMat F) (f : F → F) : SpMat F := (List.range A.rows).foldl (fun A i => A.update i i f) A

/-- `setZero()` / `resize(n, n)` -/
def SpMat.zero (n : Nat) : SpMat F := ⟨n, n, List.replicate n []⟩

/-- column `j` of `A.selfadjointView<Upper>()`: the stored entries on and above the diagonal, and those to the right of the diagonal in row `j` -/
def upperCol (A : SpMat F) (j : Nat) : SpCol F :=
  ((A.col[j]?).getD []).filter (fun e => decide (e.1 ≤ j)) ++
    (List.range' (j + 1) (A.cols - (j + 1))).filterMap fun k => ((A.col[k]?).bind fun c => findRow c j).map fun v => (k, v)

/-- `A = A.selfadjointView<Upper>()`, gn.h:143 -/
def SpMat.symUpper (A : SpMat F) : SpMat F := { A with col := (List.range A.cols).map (upperCol A) }

/-- `(H.diagonal().cwiseAbs().array() < t).any()`, gn.h:131-132 -/
def SpMat.lowDiag (A : SpMat F) (t : F) : Bool := (List.range (min A.rows A.cols)).any fun i => lt (absF (A.coeff i i)) t

/-! ### The class invariant -/

theorem findRow_map_ne (c : SpCol F) (i r : Nat) (f : F → F) (h : r ≠ i) :
    findRow (c.map fun e => if e.1 = i then (e.1, f e.2) else e) r = findRow c r := by
  induction c with
  | nil => rfl
  | cons e c ih =>
    unfold findRow at ih ⊢
    rw [List.map_cons, List.find?_cons, List.find?_cons]
    by_cases he : e.1 = i
    · have : (e.1 == r) = false := by rw [beq_eq_false_iff_ne, he]; exact fun hh => h hh.symm
      simp only [he, if_true]
      rw [show (i == r) = false by rw [← he]; exact this]
      exact ih
    · simp only [he, if_false]
      cases (e.1 == r)
      · exact ih
      · rfl

theorem findRow_map_eq (c : SpCol F) (i : Nat) (f : F → F) :
    findRow (c.map fun e => if e.1 = i then (e.1, f e.2) else e) i = (findRow c i).map f := by
  induction c with
  | nil => rfl
  | cons e c ih =>
    unfold findRow at ih ⊢
    rw [List.map_cons, List.find?_cons, List.find?_cons]
    by_cases he : e.1 = i
    · simp [he]
    · have : (e.1 == i) = false := by simpa using he
      simp only [he, if_false, this]
      exact ih

theorem findRow_append (a b : SpCol F) (r : Nat) : findRow (a ++ b) r = (findRow a r).or (findRow b r) := by
  unfold findRow
  rw [List.find?_append]
  cases a.find? fun e => e.1 == r <;> simp

theorem findRow_cons (e : Nat × F) (b : SpCol F) (r : Nat) : findRow (e :: b) r = if e.1 = r then some e.2 else findRow b r := by
  unfold findRow
  rw [List.find?_cons]
  by_cases h : e.1 = r
  · simp [h]
  · have : (e.1 == r) = false := by simpa using h
    simp [h, this]

/-- reading after `coeffRef(i, j) = ...` -/
theorem findRow_colSet (c : SpCol F) (i r : Nat) (f : F → F) :
    findRow (colSet c i f) r = if r = i then some (f ((findRow c i).getD (ofInt 0))) else findRow c r := by
  unfold colSet
  split
  next hs =>
    obtain ⟨v, hv⟩ := Option.isSome_iff_exists.1 hs
    by_cases hr : r = i
    · subst hr; rw [findRow_map_eq, hv]; simp
    · rw [findRow_map_ne _ _ _ _ hr]; simp [hr]
  next hs =>
    have hn : findRow c i = none := by simpa using hs
    have hc : findRow c r = (findRow (c.takeWhile fun e => decide (e.1 < i)) r).or
        (findRow (c.dropWhile fun e => decide (e.1 < i)) r) := by
      rw [← findRow_append, List.takeWhile_append_dropWhile]
    rw [findRow_append, findRow_cons]
    by_cases hr : r = i
    · subst hr
      rw [hn] at hc
      have h1 : findRow (c.takeWhile fun e => decide (e.1 < r)) r = none := by
        cases h : findRow (c.takeWhile fun e => decide (e.1 < r)) r with
        | none => rfl
        | some v => rw [h] at hc; simp at hc
      rw [h1, hn]; simp
    · have : ¬ i = r := fun h => hr h.symm
      simp only [this, if_false, hr]
      exact hc.symm

theorem colSet_rows (c : SpCol F) (i : Nat) (f : F → F) : ∀ e ∈ colSet c i f, e.1 = i ∨ ∃ e' ∈ c, e'.1 = e.1 := by
  intro e he
  unfold colSet at he
  split at he
  · obtain ⟨e', h1, rfl⟩ := List.mem_map.1 he
    exact Or.inr ⟨e', h1, by split <;> rfl⟩
  · rcases List.mem_append.1 he with h | h
    · exact Or.inr ⟨e, (List.takeWhile_subset _) h, rfl⟩
    · rcases List.mem_cons.1 h with rfl | h
      · exact Or.inl rfl
      · exact Or.inr ⟨e, (List.dropWhile_subset _) h, rfl⟩

theorem findRow_none_iff (c : SpCol F) (i : Nat) : findRow c i = none ↔ i ∉ c.map (·.1) := by
  induction c with
  | nil => simp [findRow]
  | cons e c ih =>
    rw [findRow_cons]
    by_cases h : e.1 = i
    · simp [h]
    · have : ¬ i = e.1 := fun hh => h hh.symm
      rw [if_neg h, ih]
      simp [this]

theorem colSet_nodup (c : SpCol F) (i : Nat) (f : F → F) (h : (c.map (·.1)).Nodup) : ((colSet c i f).map (·.1)).Nodup := by
  unfold colSet
  split
  · rw [List.map_map]
    have : ((fun e : Nat × F => e.1) ∘ fun e => if e.1 = i then (e.1, f e.2) else e) = fun e => e.1 := by
      funext e; simp only [Function.comp]; split <;> rfl
    rw [this]; exact h
  next hs =>
    have hn : i ∉ c.map (·.1) := (findRow_none_iff c i).1 (by simpa using hs)
    have hp : ((c.takeWhile fun e => decide (e.1 < i)) ++ (i, f (ofInt 0)) :: c.dropWhile fun e => decide (e.1 < i)).Perm
        ((i, f (ofInt 0)) :: c) := by
      refine List.perm_middle.trans ?_
      rw [List.takeWhile_append_dropWhile]
    rw [(hp.map (·.1)).nodup_iff, List.map_cons, List.nodup_cons]
    exact ⟨hn, h⟩

theorem SpMat.WF.update {A : SpMat F} (h : A.WF) {i j : Nat} (hi : i < A.rows) (f : F → F) : (A.update i j f).WF where
  len := by simp [SpMat.update, h.len]
  inRange := by
    intro c hc e he
    simp only [SpMat.update] at hc ⊢
    obtain ⟨k, hk⟩ := List.mem_iff_getElem?.1 hc
    rw [List.getElem?_modify] at hk
    cases hkc : A.col[k]? with
    | none => rw [hkc] at hk; simp at hk
    | some c0 =>
      have hm := List.mem_of_getElem? hkc
      rw [hkc] at hk
      simp only [Option.map_eq_map, Option.map_some, Option.some.injEq] at hk
      subst hk
      split at he
      · rcases colSet_rows c0 i f e he with rfl | ⟨e', h1, h2⟩
        · exact hi
        · rw [← h2]; exact h.inRange _ hm _ h1
      · exact h.inRange _ hm _ he
  nodup := by
    intro c hc
    simp only [SpMat.update] at hc
    obtain ⟨k, hk⟩ := List.mem_iff_getElem?.1 hc
    rw [List.getElem?_modify] at hk
    cases hkc : A.col[k]? with
    | none => rw [hkc] at hk; simp at hk
    | some c0 =>
      have hm := List.mem_of_getElem? hkc
      rw [hkc] at hk
      simp only [Option.map_eq_map, Option.map_some, Option.some.injEq] at hk
      subst hk
      split
      · exact colSet_nodup c0 i f (h.nodup _ hm)
      · exact h.nodup _ hm

theorem SpMat.update_coeff (A : SpMat F) (i j r k : Nat) (f : F → F) (hj : j < A.col.length) :
    (A.update i j f).coeff r k = if r = i ∧ k = j then f (A.coeff i j) else A.coeff r k := by
  unfold SpMat.coeff SpMat.update
  simp only
  rw [List.getElem?_modify]
  by_cases hk : k = j
  · subst hk
    simp only [if_true]
    rw [List.getElem?_eq_getElem hj]
    simp only [Option.map_eq_map, Option.map_some, Option.bind_some, findRow_colSet]
    by_cases hr : r = i
    · simp [hr]
    · simp [hr]
  · have hk' : ¬ j = k := fun h => hk h.symm
    simp only [hk', hk, if_false, and_false]
    cases A.col[k]? <;> simp

/-- the invariant and the sizes -/
def SpMat.Square (A : SpMat F) (n : Nat) : Prop := A.WF ∧ A.rows = n ∧ A.cols = n

theorem updateDiag_aux (f : F → F) : ∀ (l : List Nat) (A : SpMat F) (n : Nat), A.Square n → (∀ i ∈ l, i < n) → l.Nodup →
    (l.foldl (fun A i => A.update i i f) A).Square n ∧ ∀ r k, (l.foldl (fun A i => A.update i i f) A).coeff r k =
      if r = k ∧ k ∈ l then f (A.coeff r k) else A.coeff r k := by
  intro l
  induction l with
  | nil => intro A n h _ _; exact ⟨h, by simp⟩
  | cons i l ih =>
    intro A n h hl hd
    have hi := hl i List.mem_cons_self
    have hi' : i < A.rows := by rw [h.2.1]; exact hi
    have hc : i < A.col.length := by rw [h.1.len, h.2.2]; exact hi
    rw [List.nodup_cons] at hd
    obtain ⟨h1, h2⟩ := ih (A.update i i f) n ⟨h.1.update hi' f, h.2.1, h.2.2⟩ (fun k hk => hl k (List.mem_cons_of_mem _ hk)) hd.2
    refine ⟨h1, fun r k => ?_⟩
    rw [List.foldl_cons, h2, SpMat.update_coeff _ _ _ _ _ _ hc]
    by_cases hr : r = k
    · subst hr
      by_cases hri : r = i
      · subst hri; simp [hd.1]
      · simp [hri]
    · have : ¬ (r = i ∧ k = i) := fun h => hr (h.1.trans h.2.symm)
      simp [hr, this]

theorem SpMat.updateDiag_square {A : SpMat F} {n : Nat} (h : A.Square n) (f : F → F) : (A.updateDiag f).Square n :=
  (updateDiag_aux f _ A n h (fun i hi => by rw [← h.2.1]; exact List.mem_range.1 hi) List.nodup_range).1

theorem SpMat.updateDiag_coeff {A : SpMat F} {n : Nat} (h : A.Square n) (f : F → F) (r k : Nat) (hk : k < n) :
    (A.updateDiag f).coeff r k = if r = k then f (A.coeff r k) else A.coeff r k := by
  have := (updateDiag_aux f (List.range A.rows) A n h (fun i hi => by rw [← h.2.1]; exact List.mem_range.1 hi) List.nodup_range).2 r k
  unfold SpMat.updateDiag
  rw [this]
  have hm : k ∈ List.range A.rows := by rw [List.mem_range, h.2.1]; exact hk
  simp [hm]

theorem SpMat.zero_square (n : Nat) : (SpMat.zero n : SpMat F).Square n :=
  ⟨⟨by simp [SpMat.zero], fun c hc => by simp [SpMat.zero] at hc; simp [hc.2], fun c hc => by simp [SpMat.zero] at hc; simp [hc.2]⟩, rfl, rfl⟩

theorem SpMat.zero_coeff (n r k : Nat) : (SpMat.zero n : SpMat F).coeff r k = ofInt 0 := by
  unfold SpMat.coeff SpMat.zero
  simp only [List.getElem?_replicate]
  split <;> simp [findRow]

theorem findRow_filter (c : SpCol F) (j r : Nat) (h : r ≤ j) : findRow (c.filter fun e => decide (e.1 ≤ j)) r = findRow c r := by
  induction c with
  | nil => rfl
  | cons e c ih =>
    rw [List.filter_cons]
    by_cases he : e.1 ≤ j
    · simp only [he, decide_true, if_true, findRow_cons, ih]
    · have : ¬ e.1 = r := by omega
      simp only [he, decide_false, Bool.false_eq_true, if_false, findRow_cons, this, ih]

theorem findRow_filter_none (c : SpCol F) (j r : Nat) (h : j < r) : findRow (c.filter fun e => decide (e.1 ≤ j)) r = none := by
  rw [findRow_none_iff]
  intro hm
  obtain ⟨e, he, rfl⟩ := List.mem_map.1 hm
  have := (List.mem_filter.1 he).2
  simp at this
  omega

theorem findRow_mirror (g : Nat → Option F) (r : Nat) : ∀ (l : List Nat),
    findRow (l.filterMap fun k => (g k).map fun v => (k, v)) r = if r ∈ l then g r else none := by
  intro l
  induction l with
  | nil => rfl
  | cons k l ih =>
    rw [List.filterMap_cons]
    by_cases hk : k = r
    · subst hk
      cases hg : g k with
      | none =>
        simp only [Option.map_none]
        rw [ih, hg]; simp
      | some v => simp [findRow_cons]
    · have : ¬ r = k := fun h => hk h.symm
      cases hg : g k with
      | none => simp only [Option.map_none]; rw [ih]; simp [this]
      | some v => simp only [Option.map_some, findRow_cons, hk, if_false]; rw [ih]; simp [this]

theorem mirror_rows (g : Nat → Option F) (l : List Nat) :
    (l.filterMap fun k => (g k).map fun v => (k, v)).map (·.1) = l.filter fun k => (g k).isSome := by
  induction l with
  | nil => rfl
  | cons k l ih =>
    rw [List.filterMap_cons, List.filter_cons]
    cases hg : g k with
    | none => simpa using ih
    | some v => simpa using ih

theorem SpMat.symUpper_square {A : SpMat F} {n : Nat} (h : A.Square n) : A.symUpper.Square n := by
  refine ⟨⟨by simp [SpMat.symUpper], ?_, ?_⟩, h.2.1, h.2.2⟩
  · intro c hc e he
    obtain ⟨j, hj, rfl⟩ := List.mem_map.1 hc
    rw [List.mem_range] at hj
    rcases List.mem_append.1 he with h1 | h1
    · have h2 := (List.mem_filter.1 h1).1
      cases hcj : A.col[j]? with
      | none => rw [hcj] at h2; simp at h2
      | some c0 => rw [hcj] at h2; exact h.1.inRange _ (List.mem_of_getElem? hcj) _ h2
    · obtain ⟨k, hk, hv⟩ := List.mem_filterMap.1 h1
      rw [List.mem_range'_1] at hk
      obtain ⟨v, -, rfl⟩ := Option.map_eq_some_iff.1 hv
      show k < A.rows
      rw [h.2.1]; have := h.2.2; omega
  · intro c hc
    obtain ⟨j, hj, rfl⟩ := List.mem_map.1 hc
    rw [List.mem_range] at hj
    unfold upperCol
    rw [List.map_append, mirror_rows, List.nodup_append]
    refine ⟨?_, (List.nodup_range' (step := 1)).filter _, ?_⟩
    · cases hcj : A.col[j]? with
      | none => simp
      | some c0 =>
        exact (List.filter_sublist.map _).nodup (h.1.nodup _ (List.mem_of_getElem? hcj))
    · intro a ha b hb hab
      subst hab
      obtain ⟨e, he, rfl⟩ := List.mem_map.1 ha
      have h1 := (List.mem_filter.1 he).2
      have h2 := (List.mem_filter.1 hb).1
      rw [List.mem_range'_1] at h2
      simp at h1
      omega

theorem SpMat.symUpper_coeff {A : SpMat F} {n : Nat} (h : A.Square n) (r k : Nat) (hr : r < n) (hk : k < n) :
    A.symUpper.coeff r k = if r ≤ k then A.coeff r k else A.coeff k r := by
  unfold SpMat.coeff SpMat.symUpper
  simp only [List.getElem?_map]
  rw [List.getElem?_range (by rw [h.2.2]; exact hk)]
  simp only [Option.map_some, Option.bind_some, upperCol]
  rw [findRow_append, findRow_mirror (fun k' => (A.col[k']?).bind fun c => findRow c k) r]
  by_cases hrk : r ≤ k
  · rw [if_pos hrk, findRow_filter _ _ _ hrk]
    have : r ∉ List.range' (k + 1) (A.cols - (k + 1)) := by rw [List.mem_range'_1]; omega
    rw [if_neg this]
    cases A.col[k]? <;> simp [findRow]
  · rw [if_neg hrk, findRow_filter_none _ _ _ (by omega)]
    have : r ∈ List.range' (k + 1) (A.cols - (k + 1)) := by rw [List.mem_range'_1]; have := h.2.2; omega
    rw [if_pos this]
    simp

/-! ### Square matrices of a given size -/

/-- sparse `n x n` matrix -/
structure SpSq (F : Type) [FloatOps F] (n : Nat) where
  m : SpMat F
  ok : m.Square n

variable {n : Nat}

def SpSq.zero (n : Nat) : SpSq F n := ⟨SpMat.zero n, SpMat.zero_square n⟩
def SpSq.updateDiag (A : SpSq F n) (f : F → F) : SpSq F n := ⟨A.m.updateDiag f, SpMat.updateDiag_square A.ok f⟩
def SpSq.symUpper (A : SpSq F n) : SpSq F n := ⟨A.m.symUpper, SpMat.symUpper_square A.ok⟩

/-- the coefficients -/
def SpSq.dense (A : SpSq F n) : Mat F n := fun i j => A.m.coeff i j

/-- the stored entries of column `j` of `M.sparseView()`: the coefficients that are not 0 -/
def viewCol (M : Mat F n) (j : Fin n) : SpCol F :=
  (List.finRange n).filterMap fun i => if eq (M i j) (ofInt 0) then none else some (i.1, M i j)

theorem viewCol_rows (M : Mat F n) (j : Fin n) :
    (viewCol M j).map (·.1) = ((List.finRange n).filter fun i => !eq (M i j) (ofInt 0)).map Fin.val := by
  unfold viewCol
  generalize List.finRange n = l
  induction l with
  | nil => rfl
  | cons i l ih => rw [List.filterMap_cons, List.filter_cons]; cases eq (M i j) (ofInt 0) <;> simpa using ih

/-- `M.sparseView()`, as in optimize_autodiff.h:154 and tests/sparse.cpp:40 -/
def SpSq.ofDense (M : Mat F n) : SpSq F n where
  m := ⟨n, n, (List.finRange n).map (viewCol M)⟩
  ok := by
    refine ⟨⟨by simp, ?_, ?_⟩, rfl, rfl⟩
    · intro c hc e he
      obtain ⟨j, -, rfl⟩ := List.mem_map.1 hc
      obtain ⟨i, -, hi⟩ := List.mem_filterMap.1 he
      split at hi
      · cases hi
      · injection hi with hi; rw [← hi]; exact i.2
    · intro c hc
      obtain ⟨j, -, rfl⟩ := List.mem_map.1 hc
      rw [viewCol_rows]
      exact ((List.nodup_finRange n).filter _).map Fin.val_injective

/-- sparse matrix with its run-time size -/
structure DSp (F : Type) [FloatOps F] where
  n : Nat
  m : SpSq F n

def DSp.dense (A : DSp F) : DMat F := ⟨A.n, A.m.dense⟩

end

/-! ### The solvers -/

/-- `Eigen::SimplicialLDLT<SparseMatrix, Upper>`: `factor shift n A` tells whether `info()` is `Success` after `compute(A)` with
`setShift(shift)` (0 by default), `solve` is the solution with this factorisation. A failed factorisation reports `NumericalIssue` (the only
failure `compute` has). `auto X = solver.solve(b)` is not evaluated before `return X`, so the test of `info()` in between
(math.h:133, 274) tests the factorisation again and is always passed. -/
structure SpLinAlg (F : Type) [FloatOps F] where
  factor : F → (n : Nat) → SpSq F n → Bool
  solve : F → (n : Nat) → SpSq F n → Vec F n → Vec F n

/-- The user's function with a sparse Hessian. -/
structure SpAcc (F R W X : Type) [FloatOps F] where
  full : W → X → (n : Nat) → Vec F n → SpSq F n → (Cost F R × Vec F n × SpSq F n) × W
  eval : W → X → Cost F R × W

/-- `Problem` with a sparse Hessian; the matrix is empty after `H_.resize`. -/
structure SpProblem (F R W X : Type) [FloatOps F] where
  acc : SpAcc F R W X
  dynDims : X → Int
  plusEq : X → DVec F → X
  clock : W → F × W
  alloc : W → (n : Nat) → Option (Vec F n) × W
  ratio1 : R

/-- state of a `SolverGN<SparseMatrix>` -/
structure SpGNState (F R : Type) [FloatOps F] where
  n : Nat
  g : Vec F n
  H : SpSq F n
  cost : Cost F R

/-- state of a `SolverLM<SparseMatrix>` -/
structure SpLMState (F R : Type) [FloatOps F] where
  gn : SpGNState F R
  lambda : F
  prev : F
  badF : F
  rebuild : Bool

section
variable {F R W X : Type} [FloatOps F]

/-- `resize`, gn.h:49-61 (`Dims == Dynamic`) -/
def spResize (P : SpProblem F R W X) (w : W) (s : SpGNState F R) (dims : Int) : ResizeOut (SpGNState F R) × W :=
  if dims < 0 then (.invalidArg, w)
  else if (s.n : Int) = dims then (.done s, w)
  else
    match P.alloc w dims.toNat with
    | (some g, w') => (.done ⟨dims.toNat, g, SpSq.zero _, s.cost⟩, w')
    | (none, w') => (.badAlloc, w')

/-- `Build` of gn.h:118-147 (`fill` is the test of line 140) and the system part of lm.h:61-97 (`fill` is false: line 89) -/
def spBuildSystem (so : SolverOpts F) (P : SpProblem F R W X) (fill : Bool) (w : W) (s : SpGNState F R) (x : X) :
    Bool × SpGNState F R × W :=
  let ((c, g, H), w1) := P.acc.full w x s.n (fun _ => ofInt 0) (SpSq.zero _)
  let s1 : SpGNState F R := ⟨s.n, g, H, normalizeCost so c⟩
  if s1.cost.isValid then
    let s2 : SpGNState F R := ⟨s.n, clampVec so.gradClip g, H, normalizeCost so c⟩
    if lt (ofInt 0) so.checkMinHDiag && H.m.lowDiag so.checkMinHDiag then (false, s2, w1)
    else (true, if fill then ⟨s.n, clampVec so.gradClip g, H.symUpper, normalizeCost so c⟩ else s2, w1)
  else (false, s1, w1)

/-- `SolveLDLT` of a sparse matrix, math.h:266-277. Unlike the dense one (math.h:232-240) it does not ask whether the matrix is positive. -/
def spSolveLDLT (L : SpLinAlg F) {n : Nat} (A : SpSq F n) (b : Vec F n) : Option (Vec F n) :=
  if L.factor (ofInt 0) n A then some (L.solve (ofInt 0) n A b) else none

/-- `Solve`, gn.h:150-171: the sparse `SolveLDLT` whatever `use_ldlt` says -/
def spSolve (L : SpLinAlg F) (s : SpGNState F R) : Option (DVec F) :=
  if s.cost.isValid then (spSolveLDLT L s.H (negVec s.g)).map (fun v => ⟨s.n, v⟩) else none

/-- `solver.solve(I)` with the identity, column by column; the matrix is given by its coefficients -/
def spSolveId (L : SpLinAlg F) (shift : F) {n : Nat} (A : SpSq F n) : Mat F n := fun i j =>
  L.solve shift n A (fun k => if k = j then ofInt 1 else ofInt 0) i

/-- `SparseInvCov(m, retry_with_shift_offset)`, math.h:114-137 -/
def sparseInvCov (L : SpLinAlg F) (retry : F) {n : Nat} (A : SpSq F n) : Option (Mat F n) :=
  if n = 0 then none
  else if L.factor (ofInt 0) n A then some (spSolveId L (ofInt 0) A)
  else if lt (ofInt 0) retry && L.factor retry n A then some (spSolveId L retry A)
  else none

/-- `SolverGN<SparseMatrix>` -/
def spGnSolver (so : SolverOpts F) (L : SpLinAlg F) (P : SpProblem F R W X) : SolverI F R W (SpGNState F R) X (DVec F) (DSp F) where
  resize := spResize P
  build := spBuildSystem so P (!so.hIsFull && !so.useLdlt)
  solve := spSolve L
  cost := fun s => s.cost
  gradSq := fun s => sqNorm s.g
  gradient := fun s => ⟨s.n, s.g⟩
  goodStep := fun s _ => .ok s
  badStep := fun s => .ok s
  failedStep := fun s => .ok s
  rebuild := fun s _ => s
  hessian := fun s => ⟨s.n, s.H⟩

/-- damping, lm.h:108-118 -/
def spDamp (s : SpLMState F R) : SpLMState F R :=
  if lt (ofInt 0) s.lambda then
    let k := if s.rebuild then add (ofInt 1) s.lambda else div (add (ofInt 1) s.lambda) (add (ofInt 1) s.prev)
    { s with gn := { s.gn with H := s.gn.H.updateDiag fun v => mul v k } }
  else s

/-- `SolverLM<SparseMatrix>::Build`, lm.h:60-121 -/
def spLmBuild (so : SolverOpts F) (P : SpProblem F R W X) (w : W) (s : SpLMState F R) (x : X) : Bool × SpLMState F R × W :=
  if s.rebuild then
    let (b, g1, w1) := spBuildSystem so P false w s.gn x
    if b then (true, spDamp { s with gn := g1 }, w1) else (false, { s with gn := g1 }, w1)
  else
    let (c, w1) := P.acc.eval w x
    let g1 := { s.gn with cost := normalizeCost so c }
    if g1.cost.isValid then (true, spDamp { s with gn := g1 }, w1) else (false, { s with gn := g1 }, w1)

/-- `GoodStep`, lm.h:123-137 -/
def spGood (so : SolverOpts F) (s : SpLMState F R) (q : F) : Res (SpLMState F R) :=
  (stdClamp (mul s.lambda (goodScale so q s.badF)) so.dampLo so.dampHi).map fun l =>
    { s with prev := s.lambda, lambda := l, badF := so.badFactor }

/-- `BadStep`, `FailedStep`, lm.h:140-148 -/
def spBad (so : SolverOpts F) (s : SpLMState F R) : Res (SpLMState F R) :=
  (stdClamp (mul s.lambda s.badF) so.dampLo so.dampHi).map fun l =>
    { s with prev := s.lambda, lambda := l, badF := mul s.badF so.badFactor }

/-- `Hessian()`, lm.h:157-171 -/
def spLmHessian (s : SpLMState F R) : DSp F :=
  if lt (ofInt 0) s.prev then ⟨s.gn.n, s.gn.H.updateDiag fun v => div v (add (ofInt 1) s.prev)⟩ else ⟨s.gn.n, s.gn.H⟩

/-- `SolverLM<SparseMatrix>` -/
def spLmSolver (so : SolverOpts F) (L : SpLinAlg F) (P : SpProblem F R W X) : SolverI F R W (SpLMState F R) X (DVec F) (DSp F) where
  resize := fun w s d =>
    match spResize P w s.gn d with
    | (.done g, w') => (.done { s with gn := g }, w')
    | (.badAlloc, w') => (.badAlloc, w')
    | (.invalidArg, w') => (.invalidArg, w')
  build := spLmBuild so P
  solve := fun s => spSolve L s.gn
  cost := fun s => s.gn.cost
  gradSq := fun s => sqNorm s.gn.g
  gradient := fun s => ⟨s.gn.n, s.gn.g⟩
  goodStep := spGood so
  badStep := spBad so
  failedStep := spBad so
  rebuild := fun s b => { s with rebuild := b }
  hessian := spLmHessian

/-- the optimizer on a sparse system -/
def spEnvOf {S : Type} (P : SpProblem F R W X) (sol : SolverI F R W S X (DVec F) (DSp F)) : Env F R W S X (DVec F) (DSp F) where
  sol := sol
  dimsDynamic := true
  dynDims := P.dynDims
  plusEq := P.plusEq
  negV := fun d => ⟨d.n, negVec d.v⟩
  normSq := fun d => sqNorm d.v
  clock := P.clock
  firstOrder := false
  ratio1 := P.ratio1

/-- `Optimizer<SolverGN<SparseMatrix>>` -/
def spGnEnv (so : SolverOpts F) (L : SpLinAlg F) (P : SpProblem F R W X) := spEnvOf P (spGnSolver so L P)
/-- `Optimizer<SolverLM<SparseMatrix>>` -/
def spLmEnv (so : SolverOpts F) (L : SpLinAlg F) (P : SpProblem F R W X) := spEnvOf P (spLmSolver so L P)

end
end Verif
