import Verif.Lemmas.RunSim
import Verif.Props.Invariance
/-!
# Two users who number the parameters or scale the residuals differently

The simulation behind C85 and C86: the parameters of the second problem are those of the first in another order `σ`, and its systems are `k` times those of the first.
-/

set_option linter.unusedSectionVars false

namespace Verif
open FloatOps Finset

section
variable {R W X X' : Type} {n : Nat}

/-- the part of the matrix that `Build` and `Solve` read, as a matrix: everything when the inverse of a full matrix is taken, otherwise the upper triangle -/
def viewH (so : SolverOpts ℝ) (H : Mat ℝ n) : Mat ℝ n := if so.hIsFull = true ∧ so.useLdlt = false then H else symUpper H

theorem symUpper_idem (H : Mat ℝ n) : symUpper (symUpper H) = symUpper H := symUpper_of_sym (symUpper_sym H)

theorem symUpper_diag (H : Mat ℝ n) (i : Fin n) : symUpper H i i = H i i := by simp [symUpper]

theorem viewH_diag (so : SolverOpts ℝ) (H : Mat ℝ n) (i : Fin n) : viewH so H i i = H i i := by
  unfold viewH; split
  · rfl
  · exact symUpper_diag H i

/-- matrices `A' = k A` up to the order of rows and columns -/
def MatTwin (σ : Equiv.Perm (Fin n)) (k : ℝ) (A A' : Mat ℝ n) : Prop := ∀ i j, A' (σ i) (σ j) = k * A i j

/-- vectors `b' = k b` up to the order -/
def VecTwin (σ : Equiv.Perm (Fin n)) (k : ℝ) (b b' : Vec ℝ n) : Prop := ∀ i, b' (σ i) = k * b i

/-- options of the solver for problems with `k` times the system: thresholds are `k` times as large -/
structure SoTwin (k : ℝ) (so so' : SolverOpts ℝ) : Prop where
  pos : 0 < k
  useLdlt : so'.useLdlt = so.useLdlt
  hIsFull : so'.hIsFull = so.hIsFull
  gradClip : so'.gradClip = k * so.gradClip
  checkMinHDiag : so'.checkMinHDiag = k * so.checkMinHDiag
  dampInit : so'.dampInit = so.dampInit
  dampLo : so'.dampLo = so.dampLo
  dampHi : so'.dampHi = so.dampHi
  goodFactor : so'.goodFactor = so.goodFactor
  badFactor : so'.badFactor = so.badFactor

/-- `P'` is the problem `P` with the parameters in the order `σ` and systems `k` times as large; `KC` relates the costs (after the scaling of `NormalizeCost`). -/
structure Twin (σ : Equiv.Perm (Fin n)) (k : ℝ) (so so' : SolverOpts ℝ) (KC : Cost ℝ R → Cost ℝ R → Prop) (tx : X' → X) (P : Problem ℝ R W X) (P' : Problem ℝ R W X') :
    Prop extends SoTwin k so so' where
  dims : P.dims = P'.dims
  dyn : ∀ y, P.dynDims (tx y) = n
  dyn' : ∀ y, P'.dynDims y = n
  plus : ∀ y v v', VecTwin σ 1 v v' → P.plusEq (tx y) ⟨n, v⟩ = tx (P'.plusEq y ⟨n, v'⟩)
  clock : P.clock = P'.clock
  ratio1 : P.ratio1 = P'.ratio1
  alloc : ∀ w j, (P.alloc w j).1.isSome = (P'.alloc w j).1.isSome ∧ (P.alloc w j).2 = (P'.alloc w j).2
  full : ∀ w y, ∃ c c' g g' H H' w1, P.acc.full w (tx y) n (fun _ => 0) (fun _ _ => 0) = ((c, g, H), w1) ∧
    P'.acc.full w y n (fun _ => 0) (fun _ _ => 0) = ((c', g', H'), w1) ∧ KC (normalizeCost so c) (normalizeCost so' c') ∧
    VecTwin σ k g g' ∧ MatTwin σ k (viewH so H) (viewH so H')
  eval : ∀ w y, ∃ c c' w1, P.acc.eval w (tx y) = (c, w1) ∧ P'.acc.eval w y = (c', w1) ∧ KC (normalizeCost so c) (normalizeCost so' c')
  valid : ∀ c c', KC c c' → c.isValid = c'.isValid

/-- The linear solver does not depend on the order of the unknowns and on a common factor. -/
structure LinTwin (L : LinAlg ℝ) (σ : Equiv.Perm (Fin n)) (k : ℝ) : Prop where
  ldlt : ∀ A A' b b', SymR A → SymR A' → MatTwin σ k A A' → VecTwin σ k b b' → Option.Rel (VecTwin σ 1) (L.ldlt n A b) (L.ldlt n A' b')
  inv : ∀ A A', MatTwin σ k A A' → MatTwin σ k⁻¹ (L.inv n A) (L.inv n A')

variable {σ : Equiv.Perm (Fin n)} {k : ℝ} {so so' : SolverOpts ℝ} {KC : Cost ℝ R → Cost ℝ R → Prop} {tx : X' → X}
variable {P : Problem ℝ R W X} {P' : Problem ℝ R W X'} {L : LinAlg ℝ}

theorem VecTwin.sqNorm {b b' : Vec ℝ n} (h : VecTwin σ k b b') : sqNorm b' = k ^ 2 * sqNorm b := by
  rw [sqNorm_eq, sqNorm_eq, dotR, dotR, ← Equiv.sum_comp σ, mul_sum]
  exact sum_congr rfl fun i _ => by rw [h i]; ring

theorem VecTwin.neg {b b' : Vec ℝ n} (h : VecTwin σ k b b') : VecTwin σ k (negVec b) (negVec b') := fun i => by
  simp only [negVec, RealOps.neg_eq, h i]; ring

theorem clampCoef_scale (hk : 0 < k) (m a : ℝ) : clampCoef (k * m) (k * a) = k * clampCoef m a := by
  simp only [clampCoef, RealOps.lt_eq, RealOps.neg_eq]
  rw [show -(k * m) = k * -m by ring]
  have h1 : ∀ a b : ℝ, k * a < k * b ↔ a < b := fun a b => mul_lt_mul_iff_right₀ hk
  by_cases h : a < -m
  · rw [if_pos ((h1 _ _).mpr h), if_pos h]
    by_cases h2 : m < -m
    · rw [if_pos ((h1 _ _).mpr h2), if_pos h2]
    · rw [if_neg (fun h3 => h2 ((h1 _ _).mp h3)), if_neg h2]
  · rw [if_neg (fun h3 => h ((h1 _ _).mp h3)), if_neg h]
    by_cases h2 : m < a
    · rw [if_pos ((h1 _ _).mpr h2), if_pos h2]
    · rw [if_neg (fun h3 => h2 ((h1 _ _).mp h3)), if_neg h2]

theorem clampVec_twin (hk : 0 < k) {m : ℝ} {g g' : Vec ℝ n} (h : VecTwin σ k g g') : VecTwin σ k (clampVec m g) (clampVec (k * m) g') := by
  intro i
  unfold clampVec
  by_cases hm : m = 0
  · rw [if_pos (by simp [hm]), if_pos (by simp [hm])]; exact h i
  · rw [if_neg (by simp [hm, hk.ne']), if_neg (by simp [hm])]
    rw [h i, clampCoef_scale hk]

theorem lowDiag_twin (hk : 0 < k) (t : ℝ) {H H' : Mat ℝ n} (h : MatTwin σ k (viewH so H) (viewH so H')) : lowDiag (k * t) H' = lowDiag t H := by
  have hd : ∀ i, H' (σ i) (σ i) = k * H i i := fun i => by
    have := h i i
    rwa [viewH_diag, viewH_diag] at this
  have ha : ∀ i, (absF (H' (σ i) (σ i)) < k * t) ↔ absF (H i i) < t := fun i => by
    rw [absF_real, absF_real, hd i, abs_mul, abs_of_pos hk]
    exact mul_lt_mul_iff_right₀ hk
  rw [Bool.eq_iff_iff]
  simp only [lowDiag, List.any_eq_true, List.mem_finRange, true_and, RealOps.lt_eq]
  constructor
  · rintro ⟨i, hi⟩
    refine ⟨σ.symm i, (ha _).mp ?_⟩
    rwa [Equiv.apply_symm_apply]
  · rintro ⟨i, hi⟩
    exact ⟨σ i, (ha i).mpr hi⟩

theorem viewH_scaleDiag (so : SolverOpts ℝ) (s : ℝ) (H : Mat ℝ n) : viewH so (scaleDiag s H) = scaleDiag s (viewH so H) := by
  unfold viewH; split
  · rfl
  · exact symUpper_scaleDiag s H

theorem MatTwin.scaleDiag {A A' : Mat ℝ n} (h : MatTwin σ k A A') (s : ℝ) : MatTwin σ k (scaleDiag s A) (scaleDiag s A') := by
  intro i j
  unfold Verif.scaleDiag
  by_cases e : i = j
  · subst e; simp only [if_true, RealOps.mul_eq, h i i]; ring
  · rw [if_neg e, if_neg (fun h => e (σ.injective h))]; exact h i j

/-- related systems -/
def SysTwin (σ : Equiv.Perm (Fin n)) (k : ℝ) (so : SolverOpts ℝ) (KC : Cost ℝ R → Cost ℝ R → Prop) (s s' : GNState ℝ R) : Prop :=
  ∃ c c' g g' H H', s = ⟨n, g, H, c⟩ ∧ s' = ⟨n, g', H', c'⟩ ∧ KC c c' ∧ VecTwin σ k g g' ∧ MatTwin σ k (viewH so H) (viewH so H')

/-- related steps -/
def StepTwin (σ : Equiv.Perm (Fin n)) (k : ℝ) (d d' : DVec ℝ) : Prop := ∃ v v', d = ⟨n, v⟩ ∧ d' = ⟨n, v'⟩ ∧ VecTwin σ k v v'

theorem buildSystem_twin (h : Twin σ k so so' KC tx P P') (w : W) (s s' : GNState ℝ R) (y : X') (hn : s.n = n) (hn' : s'.n = n) :
    ∃ b t t' w', buildSystem so P w s (tx y) = (b, t, w') ∧ buildSystem so' P' w s' y = (b, t', w') ∧ SysTwin σ k so KC t t' ∧
      (b = true → so.hIsFull = false → so.useLdlt = false → symUpper t.H = t.H ∧ symUpper t'.H = t'.H) := by
  obtain ⟨kk, g, H, c⟩ := s
  obtain ⟨kk', g', H', c'⟩ := s'
  simp only at hn hn'
  subst hn; subst hn'
  obtain ⟨c, c', g, g', H, H', w1, e, e', hc, hg, hH⟩ := h.full w y
  have z : (fun _ => ofInt 0 : Vec ℝ kk') = fun _ => 0 := by funext i; simp
  have z2 : (fun _ _ => ofInt 0 : Mat ℝ kk') = fun _ _ => 0 := by funext i j; simp
  have hv := h.valid _ _ hc
  have hg' := clampVec_twin h.pos (m := so.gradClip) hg
  unfold buildSystem gnAccumulate
  simp only [z, z2, e, e', ← hv, h.gradClip, h.checkMinHDiag, h.hIsFull, h.useLdlt, lowDiag_twin h.pos so.checkMinHDiag hH]
  have hlt : lt (ofInt 0) (k * so.checkMinHDiag) = lt (ofInt 0) so.checkMinHDiag := by
    rw [Bool.eq_iff_iff, RealOps.lt_eq, RealOps.lt_eq]
    simp [h.pos]
  rw [hlt]
  by_cases hval : (normalizeCost so c).isValid = true
  · simp only [hval, if_true]
    split
    · exact ⟨_, _, _, _, rfl, rfl, ⟨_, _, _, _, _, _, rfl, rfl, hc, hg', hH⟩, fun hb => by cases hb⟩
    · refine ⟨_, _, _, _, rfl, rfl, ?_, ?_⟩
      · by_cases hu : (!so.hIsFull && !so.useLdlt) = true
        · simp only [hu, if_true]
          refine ⟨_, _, _, _, _, _, rfl, rfl, hc, hg', ?_⟩
          have hne : ¬ (so.hIsFull = true ∧ so.useLdlt = false) := by
            simp only [Bool.and_eq_true, Bool.not_eq_true'] at hu
            simp [hu.1]
          have hvw : ∀ A : Mat ℝ kk', viewH so A = symUpper A := fun A => by unfold viewH; rw [if_neg hne]
          rw [hvw, hvw] at hH
          rwa [hvw, hvw, symUpper_idem, symUpper_idem]
        · simp only [hu]
          exact ⟨_, _, _, _, _, _, rfl, rfl, hc, hg', hH⟩
      · intro _ h1 h2
        have hu : (!so.hIsFull && !so.useLdlt) = true := by rw [h1, h2]; rfl
        rw [if_pos hu, if_pos hu]
        exact ⟨symUpper_idem _, symUpper_idem _⟩
  · simp only [hval]
    exact ⟨_, _, _, _, rfl, rfl, ⟨_, _, _, _, _, _, rfl, rfl, hc, hg, hH⟩, fun hb => by cases hb⟩

/-- the lower triangles are filled, if `Build` does so -/
def Filled (so : SolverOpts ℝ) (s : GNState ℝ R) : Prop := so.hIsFull = false → so.useLdlt = false → symUpper s.H = s.H

theorem filled_view {s : GNState ℝ R} (h : Filled so s) (hl : so.useLdlt = false) : viewH so s.H = s.H := by
  unfold viewH
  by_cases hf : so.hIsFull = true
  · rw [if_pos ⟨hf, hl⟩]
  · rw [if_neg (fun h => hf h.1)]; exact h (by simpa using hf) hl

theorem ldlt_view (hl : so.useLdlt = true) (H : Mat ℝ n) : viewH so H = symUpper H := by
  unfold viewH; rw [if_neg (by simp [hl])]

theorem mulVec_twin {k' : ℝ} {A A' : Mat ℝ n} {v v' : Vec ℝ n} (hA : MatTwin σ k' A A') (hv : VecTwin σ k v v') (hk : k' * k = 1) :
    VecTwin σ 1 (mulVecF (fun i j => FloatOps.neg (A i j)) v) (mulVecF (fun i j => FloatOps.neg (A' i j)) v') := by
  intro i
  simp only [mulVecF, sumF_eq_sum, RealOps.mul_eq, RealOps.neg_eq, one_mul]
  rw [← Equiv.sum_comp σ]
  refine sum_congr rfl fun j _ => ?_
  rw [hA i j, hv j]
  linear_combination (-(A i j) * v j) * hk

theorem gnSolve_twin (hso : SoTwin k so so') (hL : LinTwin L σ k) (hv : ∀ c c', KC c c' → c.isValid = c'.isValid) (one : Bool)
    (hone : one = true → n = 1) (hk1 : so.useLdlt = true ∨ one = false ∨ k = 1)
    (s s' : GNState ℝ R) (h : SysTwin σ k so KC s s') (hf : Filled so s) (hf' : Filled so s') :
    Option.Rel (StepTwin σ 1) (gnSolve so L one s) (gnSolve so' L one s') := by
  obtain ⟨c, c', g, g', H, H', rfl, rfl, hc, hg, hH⟩ := h
  unfold gnSolve solveLDLT
  simp only [hso.useLdlt, ← hv _ _ hc]
  split
  · by_cases hl : so.useLdlt = true
    · rw [if_pos hl, if_pos hl]
      rw [ldlt_view hl, ldlt_view hl] at hH
      have := hL.ldlt _ _ _ _ (symUpper_sym H) (symUpper_sym H') hH hg.neg
      revert this
      generalize L.ldlt n (symUpper H) (negVec g) = a
      generalize L.ldlt n (symUpper H') (negVec g') = a'
      intro this
      cases this with
      | none => exact .none
      | some hab => exact .some ⟨_, _, rfl, rfl, hab⟩
    · rw [if_neg hl, if_neg hl]
      have hl' : so.useLdlt = false := by simpa using hl
      have h1 := filled_view hf hl'
      have h2 := filled_view hf' hl'
      simp only at h1 h2
      rw [h1, h2] at hH
      have hfull := mulVec_twin (hL.inv _ _ hH) hg (inv_mul_cancel₀ hso.pos.ne')
      cases one with
      | false => exact .some ⟨_, _, rfl, rfl, hfull⟩
      | true =>
        obtain rfl := hone rfl
        have hk : k = 1 := by simpa [hl] using hk1
        have h0 : H' ⟨0, one_pos⟩ ⟨0, one_pos⟩ = H ⟨0, one_pos⟩ ⟨0, one_pos⟩ := by
          have := hH 0 0
          rw [hk, one_mul, Subsingleton.elim (σ 0) 0] at this
          exact this
        simp only [if_true, dif_pos Nat.one_pos, h0]
        split
        · exact .some ⟨_, _, rfl, rfl, hfull⟩
        · exact .some ⟨_, _, rfl, rfl, fun i => by simp⟩
  · exact .none

theorem gnResize_twin (h : Twin σ k so so' KC tx P P') (w : W)
    (s s' : GNState ℝ R) (hn : s.n = s'.n) (hd : ∀ d, P.dims = some d → s.n = d) :
    (∃ t t' w', gnResize P w s n = (.done t, w') ∧ gnResize P' w s' n = (.done t', w') ∧ t.n = n ∧ t'.n = n ∧
      (s.n = n → t = s ∧ t' = s') ∧ ∀ d, P.dims = some d → n = d) ∨
    (∃ w', gnResize P w s n = (.badAlloc, w') ∧ gnResize P' w s' n = (.badAlloc, w')) ∨
    (∃ w', gnResize P w s n = (.invalidArg, w') ∧ gnResize P' w s' n = (.invalidArg, w')) := by
  unfold gnResize
  rw [← h.dims]
  cases hp : P.dims with
  | some d =>
    simp only
    have h1 := hd d hp
    by_cases e : (n : Int) = d
    · rw [if_pos e, if_pos e]
      have : n = d := by exact_mod_cast e
      exact Or.inl ⟨_, _, _, rfl, rfl, by omega, by omega, fun _ => ⟨rfl, rfl⟩, fun d' hd' => by cases hd'; exact this⟩
    · rw [if_neg e, if_neg e]
      exact Or.inr (Or.inr ⟨_, rfl, rfl⟩)
  | none =>
    have h0 : ¬ ((n : Int) < 0) := by omega
    simp only [h0, if_false, ← hn]
    by_cases e : (s.n : Int) = n
    · rw [if_pos e, if_pos e]
      exact Or.inl ⟨_, _, _, rfl, rfl, by omega, by omega, fun _ => ⟨rfl, rfl⟩, fun d' hd' => by cases hd'⟩
    · rw [if_neg e, if_neg e]
      obtain ⟨a1, a2⟩ := h.alloc w n
      simp only [Int.toNat_natCast] at *
      cases ha : P.alloc w n with
      | mk o1 w1 =>
        cases ha' : P'.alloc w n with
        | mk o2 w2 =>
          rw [ha, ha'] at a1 a2
          simp only at a1 a2
          subst a2
          cases o1 with
          | none =>
            cases o2 with
            | none => exact Or.inr (Or.inl ⟨_, rfl, rfl⟩)
            | some => cases a1
          | some p =>
            cases o2 with
            | none => cases a1
            | some p' =>
              exact Or.inl ⟨_, _, _, rfl, rfl, rfl, rfl, fun hh => absurd (by exact_mod_cast hh) e, fun d' hd' => by cases hd'⟩

theorem dyn_twin {a b : Int} (h : a = b) : (a = 0 ↔ b = 0) ∧ (a < 0 ↔ b < 0) := by subst h; exact ⟨Iff.rfl, Iff.rfl⟩

/-- the relations between the quantities of twin runs -/
def twinRels (σ : Equiv.Perm (Fin n)) (k : ℝ) (KC KF : Cost ℝ R → Cost ℝ R → Prop) (KR : ℝ → ℝ → Prop) (tx : X' → X) : Rels ℝ R X X' (DVec ℝ) (DVec ℝ) where
  cost := KC
  final := KF
  rel := KR
  x := fun x y => x = tx y
  dx := StepTwin σ 1
  dn := fun a b => a = b
  gn := fun a b => b = k ^ 2 * a
  grad := StepTwin σ k

theorem gn_runsim (h : Twin σ k so so' KC tx P P') (hL : LinTwin L σ k) (hk1 : so.useLdlt = true ∨ P.dims ≠ some 1 ∨ k = 1) {KF : Cost ℝ R → Cost ℝ R → Prop} {KR : ℝ → ℝ → Prop} :
    RunSim (gnEnv so L P) (gnEnv so' L P') (twinRels σ k KC KF KR tx)
      (fun s s' => s.n = s'.n ∧ ∀ d, P.dims = some d → s.n = d)
      (fun s s' => s.n = n ∧ s'.n = n ∧ ∀ d, P.dims = some d → n = d)
      (fun s s' => (SysTwin σ k so KC s s' ∧ Filled so s ∧ Filled so s') ∧ ∀ d, P.dims = some d → n = d)
      (fun s s' => SysTwin σ k so KC s s' ∧ ∀ d, P.dims = some d → n = d)
      (fun s s' => (SysTwin σ k so KC s s' ∧ Filled so s ∧ Filled so s') ∧ ∀ d, P.dims = some d → n = d) where
  dimsDynamic := by simp only [gnEnv, envOf, h.dims]
  dynDims := by rintro x y rfl; exact dyn_twin ((h.dyn y).trans (h.dyn' y).symm)
  plusEq := by rintro x y d d' rfl ⟨v, v', rfl, rfl, hv⟩; exact h.plus y v v' hv
  negV := by rintro d d' ⟨v, v', rfl, rfl, hv⟩; exact ⟨negVec v, negVec v', rfl, rfl, hv.neg⟩
  norm := by rintro d d' ⟨v, v', rfl, rfl, hv⟩; have := hv.sqNorm; simp only [one_pow, one_mul] at this; exact this.symm
  normSq := fun _ _ _ => rfl
  clock := h.clock
  ratio1 := h.ratio1
  resize := by
    rintro w s s' x y rfl ⟨hn, hd⟩
    have e : (gnEnv so L P).dynDims (tx y) = n := h.dyn y
    have e' : (gnEnv so' L P').dynDims y = n := h.dyn' y
    rw [e, e']
    rcases gnResize_twin h w s s' hn hd with ⟨t, t', w', e1, e2, h1, h2, -, h3⟩ | ⟨w', e1, e2⟩ | ⟨w', e1, e2⟩
    · exact Or.inl ⟨t, t', w', e1, e2, h1, h2, h3⟩
    · exact Or.inr (Or.inl ⟨w', e1, e2⟩)
    · exact Or.inr (Or.inr ⟨w', e1, e2⟩)
  build := by
    rintro w s s' x y rfl ⟨hn, hn', hd⟩
    obtain ⟨b, t, t', w', e1, e2, hs, hf⟩ := buildSystem_twin h w s s' y hn hn'
    refine ⟨b, t, t', w', e1, e2, ?_, ?_⟩
    · obtain ⟨c, c', g, g', H, H', rfl, rfl, hc, -⟩ := hs; exact hc
    · cases b with
      | true => exact ⟨⟨hs, fun a b => (hf rfl a b).1, fun a b => (hf rfl a b).2⟩, hd⟩
      | false => exact ⟨hs, hd⟩
  gradSq := by rintro s s' ⟨⟨⟨c, c', g, g', H, H', rfl, rfl, -, hg, -⟩, -⟩, -⟩; exact hg.sqNorm
  gradient := by rintro s s' ⟨⟨⟨c, c', g, g', H, H', rfl, rfl, -, hg, -⟩, -⟩, -⟩; exact ⟨_, _, rfl, rfl, hg⟩
  gradientB := by rintro s s' ⟨⟨⟨c, c', g, g', H, H', rfl, rfl, -, hg, -⟩, -⟩, -⟩; exact ⟨_, _, rfl, rfl, hg⟩
  solve := by
    rintro s s' ⟨⟨hs, hf, hf'⟩, hd⟩
    have e : (P'.dims == some 1) = (P.dims == some 1) := by rw [h.dims]
    show Option.Rel _ (gnSolve so L (P.dims == some 1) s) (gnSolve so' L (P'.dims == some 1) s')
    rw [e]
    exact gnSolve_twin h.toSoTwin hL h.valid _ (fun ho => hd 1 (by simpa using ho)) (by
      rcases hk1 with h1 | h1 | h1
      · exact Or.inl h1
      · exact Or.inr (Or.inl (by simpa using h1))
      · exact Or.inr (Or.inr h1)) s s' hs hf hf'
  good := fun s s' q hs => hs
  bad := fun s s' hs => hs
  failedB := by rintro s s' ⟨⟨⟨c, c', g, g', H, H', rfl, rfl, -⟩, -⟩, hd⟩; exact ⟨rfl, rfl, hd⟩
  failedF := by rintro s s' ⟨⟨c, c', g, g', H, H', rfl, rfl, -⟩, hd⟩; exact ⟨rfl, rfl, hd⟩
  rebuild := by rintro s s' b ⟨⟨⟨c, c', g, g', H, H', rfl, rfl, -⟩, -⟩, hd⟩; exact ⟨rfl, hd⟩
  rebuildT := by rintro s s' ⟨⟨⟨c, c', g, g', H, H', rfl, rfl, -⟩, -⟩, hd⟩; exact ⟨rfl, hd⟩

/-- states of two `SolverLM`; the systems need only be related when they will be used again -/
structure LmTwin (σ : Equiv.Perm (Fin n)) (k : ℝ) (so : SolverOpts ℝ) (KC : Cost ℝ R → Cost ℝ R → Prop) (s s' : LMState ℝ R) : Prop where
  lambda : s.lambda = s'.lambda
  prev : s.prev = s'.prev
  badF : s.badF = s'.badF
  rebuild : s.rebuild = s'.rebuild
  sys : s.rebuild = true ∨ SysTwin σ k so KC s.gn s'.gn ∧ Filled so s.gn ∧ Filled so s'.gn

theorem filled_scaleDiag {g : Vec ℝ n} {H : Mat ℝ n} {c : Cost ℝ R} (h : Filled so ⟨n, g, H, c⟩) (q : ℝ) : Filled so ⟨n, g, scaleDiag q H, c⟩ :=
  fun a b => by rw [symUpper_scaleDiag]; exact congrArg _ (h a b)

theorem lmDamp_twin (s s' : LMState ℝ R) (h : LmTwin σ k so KC s s') (hs : SysTwin σ k so KC s.gn s'.gn ∧ Filled so s.gn ∧ Filled so s'.gn) :
    (SysTwin σ k so KC (lmDamp s).gn (lmDamp s').gn ∧ Filled so (lmDamp s).gn ∧ Filled so (lmDamp s').gn) ∧
      LmTwin σ k so KC (lmDamp s) (lmDamp s') ∧ KC (lmDamp s).gn.cost (lmDamp s').gn.cost := by
  obtain ⟨gs, l, p, b, r⟩ := s
  obtain ⟨gs', l', p', b', r'⟩ := s'
  obtain ⟨rfl, rfl, rfl, rfl, -⟩ := h
  obtain ⟨⟨c, c', g, g', H, H', rfl, rfl, hc, hg, hH⟩, hf, hf'⟩ := hs
  have key : SysTwin σ k so KC (lmDamp ⟨⟨n, g, H, c⟩, l, p, b, r⟩).gn (lmDamp ⟨⟨n, g', H', c'⟩, l, p, b, r⟩).gn ∧
      Filled so (lmDamp ⟨⟨n, g, H, c⟩, l, p, b, r⟩).gn ∧ Filled so (lmDamp ⟨⟨n, g', H', c'⟩, l, p, b, r⟩).gn := by
    unfold lmDamp
    split
    · refine ⟨⟨_, _, _, _, _, _, rfl, rfl, hc, hg, ?_⟩, filled_scaleDiag hf _, filled_scaleDiag hf' _⟩
      simp only [viewH_scaleDiag]
      exact hH.scaleDiag _
    · exact ⟨⟨_, _, _, _, _, _, rfl, rfl, hc, hg, hH⟩, hf, hf'⟩
  refine ⟨key, ⟨?_, ?_, ?_, ?_, Or.inr key⟩, ?_⟩ <;> unfold lmDamp <;> split <;> first | rfl | exact hc

theorem lm_runsim (h : Twin σ k so so' KC tx P P') (hL : LinTwin L σ k) (hk1 : so.useLdlt = true ∨ P.dims ≠ some 1 ∨ k = 1) {KF : Cost ℝ R → Cost ℝ R → Prop} {KR : ℝ → ℝ → Prop} :
    RunSim (lmEnv so L P) (lmEnv so' L P') (twinRels σ k KC KF KR tx)
      (fun s s' => LmTwin σ k so KC s s' ∧ s.gn.n = s'.gn.n ∧ ∀ d, P.dims = some d → s.gn.n = d)
      (fun s s' => LmTwin σ k so KC s s' ∧ s.gn.n = n ∧ s'.gn.n = n ∧ ∀ d, P.dims = some d → n = d)
      (fun s s' => LmTwin σ k so KC s s' ∧ (SysTwin σ k so KC s.gn s'.gn ∧ Filled so s.gn ∧ Filled so s'.gn) ∧ ∀ d, P.dims = some d → n = d)
      (fun s s' => LmTwin σ k so KC s s' ∧ SysTwin σ k so KC s.gn s'.gn ∧ ∀ d, P.dims = some d → n = d)
      (fun s s' => LmTwin σ k so KC s s' ∧ (SysTwin σ k so KC s.gn s'.gn ∧ Filled so s.gn ∧ Filled so s'.gn) ∧ ∀ d, P.dims = some d → n = d) where
  dimsDynamic := by simp only [lmEnv, envOf, h.dims]
  dynDims := by rintro x y rfl; exact dyn_twin ((h.dyn y).trans (h.dyn' y).symm)
  plusEq := by rintro x y d d' rfl ⟨v, v', rfl, rfl, hv⟩; exact h.plus y v v' hv
  negV := by rintro d d' ⟨v, v', rfl, rfl, hv⟩; exact ⟨negVec v, negVec v', rfl, rfl, hv.neg⟩
  norm := by rintro d d' ⟨v, v', rfl, rfl, hv⟩; have := hv.sqNorm; simp only [one_pow, one_mul] at this; exact this.symm
  normSq := fun _ _ _ => rfl
  clock := h.clock
  ratio1 := h.ratio1
  resize := by
    rintro w s s' x y rfl ⟨hl, hn, hd⟩
    have e : (lmEnv so L P).dynDims (tx y) = n := h.dyn y
    have e' : (lmEnv so' L P').dynDims y = n := h.dyn' y
    rw [e, e']
    simp only [lmEnv, envOf, lmSolver]
    rcases gnResize_twin h w s.gn s'.gn hn hd with ⟨g, g', w', e1, e2, h1, h2, h3, h4⟩ | ⟨w', e1, e2⟩ | ⟨w', e1, e2⟩
    · refine Or.inl ⟨{ s with gn := g }, { s' with gn := g' }, w', by rw [e1], by rw [e2], ?_, h1, h2, h4⟩
      refine ⟨hl.lambda, hl.prev, hl.badF, hl.rebuild, ?_⟩
      rcases hl.sys with h5 | h5
      · exact Or.inl h5
      · have h6 : s.gn.n = n := by obtain ⟨⟨c, c', gg, gg', H, H', h6, -⟩, -⟩ := h5; rw [h6]
        obtain ⟨rfl, rfl⟩ := h3 h6
        exact Or.inr h5
    · exact Or.inr (Or.inl ⟨w', by rw [e1], by rw [e2]⟩)
    · exact Or.inr (Or.inr ⟨w', by rw [e1], by rw [e2]⟩)
  build := by
    rintro w ⟨gs, l, p, bf, r⟩ ⟨gs', l', p', bf', r'⟩ x y rfl ⟨⟨h1, h2, h3, h4, h5⟩, hn, hn', hd⟩
    simp only at h1 h2 h3 h4 h5 hn hn'
    subst h1; subst h2; subst h3; subst h4
    simp only [lmEnv, envOf, lmSolver]
    unfold lmBuild
    cases r with
    | true =>
      obtain ⟨b, g, g', w', e1, e2, hs, hf⟩ := buildSystem_twin h w gs gs' y hn hn'
      simp only [e1, e2, if_true]
      have hl1 : LmTwin σ k so KC ⟨g, l, p, bf, true⟩ ⟨g', l, p, bf, true⟩ := ⟨rfl, rfl, rfl, rfl, Or.inl rfl⟩
      cases b
      · refine ⟨false, _, _, w', rfl, rfl, ?_, ?_⟩
        · obtain ⟨c, c', gg, gg', H, H', rfl, rfl, hc, -⟩ := hs; exact hc
        · exact ⟨hl1, hs, hd⟩
      · obtain ⟨k1, k2, k3⟩ := lmDamp_twin _ _ hl1 ⟨hs, fun a b => (hf rfl a b).1, fun a b => (hf rfl a b).2⟩
        exact ⟨true, _, _, w', rfl, rfl, k3, k2, k1, hd⟩
    | false =>
      obtain ⟨⟨c0, c0', g, g', H, H', rfl, rfl, -, hg, hH⟩, hf, hf'⟩ := h5.resolve_left (by simp)
      obtain ⟨c, c', w1, e, e', hc⟩ := h.eval w y
      unfold lmEvaluate
      have hv := h.valid _ _ hc
      simp only [e, e', Bool.false_eq_true, if_false, ← hv]
      have hs : SysTwin σ k so KC (⟨n, g, H, normalizeCost so c⟩ : GNState ℝ R) ⟨n, g', H', normalizeCost so' c'⟩ :=
        ⟨_, _, _, _, _, _, rfl, rfl, hc, hg, hH⟩
      have hsf : SysTwin σ k so KC (⟨n, g, H, normalizeCost so c⟩ : GNState ℝ R) ⟨n, g', H', normalizeCost so' c'⟩ ∧
        Filled so ⟨n, g, H, normalizeCost so c⟩ ∧ Filled so ⟨n, g', H', normalizeCost so' c'⟩ := ⟨hs, hf, hf'⟩
      have hl1 : LmTwin σ k so KC ⟨⟨n, g, H, normalizeCost so c⟩, l, p, bf, false⟩ ⟨⟨n, g', H', normalizeCost so' c'⟩, l, p, bf, false⟩ :=
        ⟨rfl, rfl, rfl, rfl, Or.inr hsf⟩
      by_cases hval : (normalizeCost so c).isValid = true
      · simp only [hval, if_true]
        obtain ⟨k1, k2, k3⟩ := lmDamp_twin _ _ hl1 hsf
        exact ⟨true, _, _, _, rfl, rfl, k3, k2, k1, hd⟩
      · simp only [hval]
        exact ⟨false, _, _, _, rfl, rfl, hc, hl1, hs, hd⟩
  gradSq := by
    rintro ⟨gs, l, p, bf, r⟩ ⟨gs', l', p', bf', r'⟩ ⟨-, ⟨⟨c, c', g, g', H, H', e1, e2, -, hg, -⟩, -⟩, -⟩
    simp only at e1 e2; subst e1; subst e2; exact hg.sqNorm
  gradient := by
    rintro ⟨gs, l, p, bf, r⟩ ⟨gs', l', p', bf', r'⟩ ⟨-, ⟨⟨c, c', g, g', H, H', e1, e2, -, hg, -⟩, -⟩, -⟩
    simp only at e1 e2; subst e1; subst e2; exact ⟨_, _, rfl, rfl, hg⟩
  gradientB := by
    rintro ⟨gs, l, p, bf, r⟩ ⟨gs', l', p', bf', r'⟩ ⟨-, ⟨⟨c, c', g, g', H, H', e1, e2, -, hg, -⟩, -⟩, -⟩
    simp only at e1 e2; subst e1; subst e2; exact ⟨_, _, rfl, rfl, hg⟩
  solve := by
    rintro s s' ⟨-, ⟨hs, hf, hf'⟩, hd⟩
    have e : (P'.dims == some 1) = (P.dims == some 1) := by rw [h.dims]
    show Option.Rel _ (gnSolve so L (P.dims == some 1) s.gn) (gnSolve so' L (P'.dims == some 1) s'.gn)
    rw [e]
    exact gnSolve_twin h.toSoTwin hL h.valid _ (fun ho => hd 1 (by simpa using ho)) (by
      rcases hk1 with h1 | h1 | h1
      · exact Or.inl h1
      · exact Or.inr (Or.inl (by simpa using h1))
      · exact Or.inr (Or.inr h1)) s.gn s'.gn hs hf hf'
  good := by
    rintro s s' q ⟨hl, hs, hd⟩
    simp only [lmEnv, envOf, lmSolver, lmGood, goodScale, h.goodFactor, h.badFactor, h.dampLo, h.dampHi]
    rw [hl.lambda, hl.badF]
    exact lmClamp_rel so _ _ _ fun l => ⟨⟨rfl, hl.lambda ▸ rfl, rfl, hl.rebuild, Or.inr hs⟩, hs, hd⟩
  bad := by
    rintro s s' ⟨hl, hs, hd⟩
    simp only [lmEnv, envOf, lmSolver, lmBad, h.badFactor, h.dampLo, h.dampHi]
    rw [hl.lambda, hl.badF]
    exact lmClamp_rel so _ _ _ fun l => ⟨⟨rfl, rfl, rfl, hl.rebuild, Or.inr hs⟩, hs, hd⟩
  failedB := by
    rintro s s' ⟨hl, hs, hd⟩
    simp only [lmEnv, envOf, lmSolver, lmBad, h.badFactor, h.dampLo, h.dampHi]
    rw [hl.lambda, hl.badF]
    refine lmClamp_rel so _ _ _ fun l => ⟨⟨rfl, rfl, rfl, hl.rebuild, Or.inr hs⟩, ?_, ?_, hd⟩ <;>
      (obtain ⟨⟨c, c', g, g', H, H', e1, e2, -⟩, -⟩ := hs; simp [e1, e2])
  failedF := by
    rintro s s' ⟨hl, hs, hd⟩
    simp only [lmEnv, envOf, lmSolver, lmBad, h.badFactor, h.dampLo, h.dampHi]
    rw [hl.lambda, hl.badF]
    refine lmClamp_rel so _ _ _ fun l => ⟨⟨rfl, rfl, rfl, hl.rebuild, hl.sys⟩, ?_, ?_, hd⟩ <;>
      (obtain ⟨c, c', g, g', H, H', e1, e2, -⟩ := hs; simp [e1, e2])
  rebuild := by
    rintro s s' b ⟨hl, hs, hd⟩
    refine ⟨⟨hl.lambda, hl.prev, hl.badF, rfl, Or.inr hs⟩, ?_, ?_⟩ <;>
      (obtain ⟨⟨c, c', g, g', H, H', e1, e2, -⟩, -⟩ := hs; simp only [lmEnv, envOf, lmSolver, e1, e2]; try exact hd)
  rebuildT := by
    rintro s s' ⟨hl, hs, hd⟩
    refine ⟨⟨hl.lambda, hl.prev, hl.badF, rfl, Or.inr hs⟩, ?_, ?_⟩ <;>
      (obtain ⟨⟨c, c', g, g', H, H', e1, e2, -⟩, -⟩ := hs; simp only [lmEnv, envOf, lmSolver, e1, e2]; try exact hd)

/-- `SolverGD` computes no matrix -/
def SysTwinG (σ : Equiv.Perm (Fin n)) (k : ℝ) (KC : Cost ℝ R → Cost ℝ R → Prop) (s s' : GNState ℝ R) : Prop :=
  ∃ c c' g g' H H', s = ⟨n, g, H, c⟩ ∧ s' = ⟨n, g', H', c'⟩ ∧ KC c c' ∧ VecTwin σ k g g'

theorem gd_runsim (h : Twin σ k so so' KC tx P P') (hlr : so'.lr = k⁻¹ * so.lr) {KF : Cost ℝ R → Cost ℝ R → Prop} {KR : ℝ → ℝ → Prop} :
    RunSim (gdEnv so P) (gdEnv so' P') (twinRels σ k KC KF KR tx)
      (fun s s' => s.n = s'.n ∧ ∀ d, P.dims = some d → s.n = d)
      (fun s s' => s.n = n ∧ s'.n = n ∧ ∀ d, P.dims = some d → n = d)
      (fun s s' => SysTwinG σ k KC s s' ∧ ∀ d, P.dims = some d → n = d)
      (fun s s' => SysTwinG σ k KC s s' ∧ ∀ d, P.dims = some d → n = d)
      (fun s s' => SysTwinG σ k KC s s' ∧ ∀ d, P.dims = some d → n = d) where
  dimsDynamic := by simp only [gdEnv, envOf, h.dims]
  dynDims := by rintro x y rfl; exact dyn_twin ((h.dyn y).trans (h.dyn' y).symm)
  plusEq := by rintro x y d d' rfl ⟨v, v', rfl, rfl, hv⟩; exact h.plus y v v' hv
  negV := by rintro d d' ⟨v, v', rfl, rfl, hv⟩; exact ⟨negVec v, negVec v', rfl, rfl, hv.neg⟩
  norm := by rintro d d' ⟨v, v', rfl, rfl, hv⟩; have := hv.sqNorm; simp only [one_pow, one_mul] at this; exact this.symm
  normSq := fun _ _ _ => rfl
  clock := h.clock
  ratio1 := h.ratio1
  resize := by
    rintro w s s' x y rfl ⟨hn, hd⟩
    have e : (gdEnv so P).dynDims (tx y) = n := h.dyn y
    have e' : (gdEnv so' P').dynDims y = n := h.dyn' y
    rw [e, e']
    rcases gnResize_twin h w s s' hn hd with ⟨t, t', w', e1, e2, h1, h2, -, h3⟩ | ⟨w', e1, e2⟩ | ⟨w', e1, e2⟩
    · exact Or.inl ⟨t, t', w', e1, e2, h1, h2, h3⟩
    · exact Or.inr (Or.inl ⟨w', e1, e2⟩)
    · exact Or.inr (Or.inr ⟨w', e1, e2⟩)
  build := by
    rintro w ⟨kk, g, H, c⟩ ⟨kk', g', H', c'⟩ x y rfl ⟨hn, hn', hd⟩
    simp only at hn hn'
    subst hn; subst hn'
    obtain ⟨c, c', g, g', H, H', w1, e, e', hc, hg, hH⟩ := h.full w y
    have z : (fun _ => ofInt 0 : Vec ℝ kk') = fun _ => 0 := by funext i; simp
    have z2 : (fun _ _ => ofInt 0 : Mat ℝ kk') = fun _ _ => 0 := by funext i j; simp
    have hv := h.valid _ _ hc
    have hg' := clampVec_twin h.pos (m := so.gradClip) hg
    simp only [gdEnv, envOf, gdSolver]
    unfold gdBuild gnAccumulate
    simp only [z, z2, e, e', ← hv, h.gradClip]
    refine ⟨_, _, _, _, rfl, rfl, hc, ?_⟩
    simp only [ite_self]
    exact ⟨⟨_, _, _, _, _, _, rfl, rfl, hc, hg'⟩, hd⟩
  gradSq := by rintro s s' ⟨⟨c, c', g, g', H, H', rfl, rfl, -, hg⟩, -⟩; exact hg.sqNorm
  gradient := by rintro s s' ⟨⟨c, c', g, g', H, H', rfl, rfl, -, hg⟩, -⟩; exact ⟨_, _, rfl, rfl, hg⟩
  gradientB := by rintro s s' ⟨⟨c, c', g, g', H, H', rfl, rfl, -, hg⟩, -⟩; exact ⟨_, _, rfl, rfl, hg⟩
  solve := by
    rintro s s' ⟨⟨c, c', g, g', H, H', rfl, rfl, hc, hg⟩, hd⟩
    simp only [gdEnv, envOf, gdSolver]
    unfold gdSolve
    simp only [← h.valid _ _ hc]
    split
    · refine .some ⟨_, _, rfl, rfl, fun i => ?_⟩
      simp only [RealOps.mul_eq, RealOps.neg_eq, hlr, hg i]
      field_simp [h.pos.ne']
    · exact .none
  good := fun s s' q hs => hs
  bad := fun s s' hs => hs
  failedB := by rintro s s' ⟨⟨c, c', g, g', H, H', rfl, rfl, -⟩, hd⟩; exact ⟨rfl, rfl, hd⟩
  failedF := by rintro s s' ⟨⟨c, c', g, g', H, H', rfl, rfl, -⟩, hd⟩; exact ⟨rfl, rfl, hd⟩
  rebuild := by rintro s s' b ⟨⟨c, c', g, g', H, H', rfl, rfl, -⟩, hd⟩; exact ⟨rfl, hd⟩
  rebuildT := by rintro s s' ⟨⟨c, c', g, g', H, H', rfl, rfl, -⟩, hd⟩; exact ⟨rfl, hd⟩

end
end Verif
