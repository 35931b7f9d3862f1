import Verif.Lemmas.CoSim
import Verif.Lemmas.RealLin
import Verif.Props.GnQuadratic
import Verif.Examples.Solver1
/-!
# C76: changes of coordinates
-/

set_option linter.unusedSectionVars false

namespace Verif
open FloatOps Finset

section
variable {R W X X' : Type} {n m : Nat}

/-- `T^T H T` -/
def cong (T H : Mat ℝ n) : Mat ℝ n := fun i j => ∑ k, ∑ l, T k i * H k l * T l j
/-- diagonal matrix -/
def diagM (t : Vec ℝ n) : Mat ℝ n := fun i j => if i = j then t i else 0

/-- `P'` is the problem `P` in the coordinates `y` with `x = tx y`, whose steps are related by the matrix `T`: the user's function
called at `y` reports the cost of `tx y`, the gradient `T^T g` and the Hessian `T^T H T`. Sizes, clock and allocator behave in the same way. -/
structure Recoord (T : Mat ℝ n) (tx : X' → X) (P : Problem ℝ R W X) (P' : Problem ℝ R W X') : Prop where
  dims : P.dims = P'.dims
  dyn : ∀ y, P.dynDims (tx y) = n
  dyn' : ∀ y, P'.dynDims y = n
  plus : ∀ y v, P.plusEq (tx y) ⟨n, mv T v⟩ = tx (P'.plusEq y ⟨n, v⟩)
  clock : P.clock = P'.clock
  ratio1 : P.ratio1 = P'.ratio1
  alloc : ∀ w k, (P.alloc w k).1.isSome = (P'.alloc w k).1.isSome ∧ (P.alloc w k).2 = (P'.alloc w k).2
  full : ∀ w y, ∃ c g H H' w1, P.acc.full w (tx y) n (fun _ => 0) (fun _ _ => 0) = ((c, g, H), w1) ∧
    P'.acc.full w y n (fun _ => 0) (fun _ _ => 0) = ((c, tmv T g, H'), w1) ∧ symUpper H' = cong T (symUpper H)
  eval : ∀ w y, P.acc.eval w (tx y) = P'.acc.eval w y

/-- the linear solver gives, for the system in the new coordinates, the solution in the new coordinates -/
def EquivLDLT (L : LinAlg ℝ) (T : Mat ℝ n) : Prop :=
  ∀ H b, SymR H → L.ldlt n H b = (L.ldlt n (cong T H) (tmv T b)).map (mv T)

/-- exact on positive definite matrices, refusing all others -/
structure PDLinAlg (L : LinAlg ℝ) : Prop where
  exact : ∀ n A b, PD A → ∃ v, L.ldlt n A b = some v ∧ mv A v = b
  refuse : ∀ n A b, ¬ PD A → L.ldlt n A b = none

/-- the stop criteria that look at the size of the step or of the gradient are off; a callback may look at the cost only -/
structure CostOnly (o : Options ℝ W (DVec ℝ)) : Prop where
  step : o.minStepNorm2 ≤ 0
  grad : o.minGradNorm2 ≤ 0
  cb1 : ∀ cb, o.stopCallback = some cb → ∀ w e a b a' b', cb w e a b = cb w e a' b'
  cb2 : o.stopCallback2 = none

/-- clipping and the check of the diagonal are off, the systems are solved by LDLT -/
structure ScaleFree (so : SolverOpts ℝ) : Prop where
  clip : so.gradClip = 0
  diag : so.checkMinHDiag ≤ 0
  ldlt : so.useLdlt = true

theorem tmv_neg (T : Mat ℝ n) (v : Vec ℝ n) : tmv T (negVec v) = negVec (tmv T v) := by
  funext j; simp [tmv, negVec]

theorem mv_negVec (T : Mat ℝ n) (v : Vec ℝ n) : mv T (negVec v) = negVec (mv T v) := by
  funext j; simp [mv, negVec]

theorem symUpper_sym (H : Mat ℝ n) : SymR (symUpper H) := by
  intro i j
  unfold symUpper
  by_cases h : i ≤ j
  · by_cases h' : j ≤ i
    · rw [le_antisymm h h']
    · rw [if_pos h, if_neg h']
  · rw [if_neg h, if_pos (le_of_lt (not_le.mp h))]

theorem mv_cong (T H : Mat ℝ n) (v : Vec ℝ n) : mv (cong T H) v = tmv T (mv H (mv T v)) := by
  funext i
  simp only [mv, cong, tmv, sum_mul, mul_sum]
  rw [sum_comm]
  refine sum_congr rfl fun k _ => ?_
  rw [sum_comm]
  exact sum_congr rfl fun l _ => sum_congr rfl fun j _ => by ring

theorem cong_diag (t : Vec ℝ n) (H : Mat ℝ n) : cong (diagM t) H = fun i j => t i * H i j * t j := by
  funext i j
  unfold cong diagM
  rw [sum_eq_single i, sum_eq_single j]
  · simp
  · intro l _ hl; simp [hl]
  · intro h; exact absurd (mem_univ j) h
  · intro k _ hk; simp [hk]
  · intro h; exact absurd (mem_univ i) h

theorem symUpper_scaleDiag (k : ℝ) (H : Mat ℝ n) : symUpper (scaleDiag k H) = scaleDiag k (symUpper H) := by
  funext i j
  unfold symUpper scaleDiag
  by_cases e : i = j
  · subst e; simp
  · by_cases h : i ≤ j
    · simp [h, e]
    · simp [h, e, Ne.symm e]

theorem scaleDiag_cong (t : Vec ℝ n) (k : ℝ) (H : Mat ℝ n) :
    scaleDiag k (cong (diagM t) H) = cong (diagM t) (scaleDiag k H) := by
  rw [cong_diag, cong_diag]
  funext i j
  unfold scaleDiag
  by_cases e : i = j
  · subst e; simp only [if_true, RealOps.mul_eq]; ring
  · simp [e]

/-- a linear solver that is exact on positive definite systems and refuses all others does not depend on the coordinates -/
theorem pdLinAlg_equiv {L : LinAlg ℝ} (h : PDLinAlg L) {T S : Mat ℝ n} (hTS : ∀ v, mv T (mv S v) = v)
    (hST : ∀ v, mv S (mv T v) = v) : EquivLDLT L T := by
  have hinj : ∀ v, tmv T v = 0 → v = 0 := by
    intro v hv
    refine dotR_self_eq_zero ?_
    have h1 : dotR (mv T (mv S v)) v = 0 := by rw [← dotR_tmv, hv]; simp [dotR]
    rwa [hTS] at h1
  have hpd : ∀ H, SymR H → (PD (cong T H) ↔ PD H) := by
    intro H hs
    have hs' : SymR (cong T H) := by
      intro i j
      unfold cong
      rw [sum_comm]
      exact sum_congr rfl fun k _ => sum_congr rfl fun l _ => by rw [hs l k]; ring
    constructor
    · intro hp
      refine ⟨hs, fun v hv => ?_⟩
      have h1 := hp.2 (mv S v) (fun h0 => hv (by rw [← hTS v, h0, mv_zero]))
      rwa [mv_cong, dotR_tmv, hTS] at h1
    · intro hp
      refine ⟨hs', fun v hv => ?_⟩
      rw [mv_cong, dotR_tmv]
      exact hp.2 _ (fun h0 => hv (by rw [← hST v, h0, mv_zero]))
  intro H b hs
  by_cases hp : PD H
  · obtain ⟨v, e1, e2⟩ := h.exact n H b hp
    obtain ⟨v', e3, e4⟩ := h.exact n (cong T H) (tmv T b) ((hpd H hs).mpr hp)
    rw [e1, e3]
    simp only [Option.map_some]
    congr 1
    refine pd_inj hp ?_
    rw [e2]
    rw [mv_cong] at e4
    have : tmv T (mv H (mv T v') - b) = 0 := by
      have hsub : tmv T (mv H (mv T v') - b) = tmv T (mv H (mv T v')) - tmv T b := by
        funext j; simp [tmv, mul_sub, sum_sub_distrib]
      rw [hsub, e4, sub_self]
    exact (sub_eq_zero.mp (hinj _ this)).symm
  · rw [h.refuse n H b hp, h.refuse n (cong T H) _ (fun hq => hp ((hpd H hs).mp hq))]
    rfl

/-- related steps: `d = T d'` -/
def StepRelT (T : Mat ℝ n) (d d' : DVec ℝ) : Prop := ∃ v, d = ⟨n, mv T v⟩ ∧ d' = ⟨n, v⟩

/-- related systems: same cost, `g' = T^T g`, `H' = T^T H T` on the triangle that is read -/
def SysRel (T : Mat ℝ n) (s s' : GNState ℝ R) : Prop :=
  ∃ c g H H', s = ⟨n, g, H, c⟩ ∧ s' = ⟨n, tmv T g, H', c⟩ ∧ symUpper H' = cong T (symUpper H)

theorem optRel_costOnly {o : Options ℝ W (DVec ℝ)} (h : CostOnly o) (T : Mat ℝ n) : OptRel o o (StepRelT T) where
  checkFinalCost := rfl
  useStepQuality := rfl
  maxIters := rfl
  maxTotalFailures := rfl
  maxConsecFailures := rfl
  maxDurationMs := rfl
  criteria := by
    intro w err rel dn2 dn2' gn2 gn2' dx dx' g g' _
    have h1 : lt (ofInt 0) o.minStepNorm2 = false := by simpa using h.step
    have h2 : lt (ofInt 0) o.minGradNorm2 = false := by simpa using h.grad
    have h3 : callStop1 o w err dn2 gn2 = callStop1 o w err dn2' gn2' := by
      unfold callStop1
      cases hc : o.stopCallback with
      | none => rfl
      | some cb => exact h.cb1 cb hc _ _ _ _ _ _
    have h4 : ∀ w d g, callStop2 o w err d g = (false, w) := by
      intro w d g; unfold callStop2; rw [h.cb2]
    unfold criteria
    rw [h1, h2, h3, h4, h4]
    simp

theorem buildSystem_rel {T : Mat ℝ n} {tx : X' → X} {P : Problem ℝ R W X} {P' : Problem ℝ R W X'} (h : Recoord T tx P P')
    {so : SolverOpts ℝ} (hso : ScaleFree so) (w : W) (s s' : GNState ℝ R) (y : X') (hn : s.n = n) (hn' : s'.n = n) :
    ∃ b t t' w', buildSystem so P w s (tx y) = (b, t, w') ∧ buildSystem so P' w s' y = (b, t', w') ∧ SysRel T t t' := by
  obtain ⟨k, g, H, c⟩ := s
  obtain ⟨k', g', H', c'⟩ := s'
  simp only at hn hn'
  subst hn; subst hn'
  obtain ⟨c, g, H, H', w1, e, e', hH⟩ := h.full w y
  have hd : lt (ofInt 0) so.checkMinHDiag = false := by simpa using hso.diag
  have hc : eq so.gradClip (ofInt 0) = true := by simpa using hso.clip
  have z : (fun _ => ofInt 0 : Vec ℝ k') = fun _ => 0 := by funext i; simp
  have z2 : (fun _ _ => ofInt 0 : Mat ℝ k') = fun _ _ => 0 := by funext i j; simp
  unfold buildSystem gnAccumulate
  simp only [z, z2, e, e', hd, hso.ldlt, clampVec, hc, Bool.not_true, Bool.and_false, Bool.false_and, Bool.false_eq_true,
    if_false, if_true]
  by_cases hv : (normalizeCost so c).isValid = true
  · simp only [hv, if_true]
    exact ⟨_, _, _, _, rfl, rfl, _, _, _, _, rfl, rfl, hH⟩
  · simp only [hv]
    exact ⟨_, _, _, _, rfl, rfl, _, _, _, _, rfl, rfl, hH⟩

theorem gnSolve_rel {T : Mat ℝ n} {L : LinAlg ℝ} (hL : EquivLDLT L T) {so : SolverOpts ℝ} (hso : ScaleFree so) (one one' : Bool)
    (s s' : GNState ℝ R) (h : SysRel T s s') : Option.Rel (StepRelT T) (gnSolve so L one s) (gnSolve so L one' s') := by
  obtain ⟨c, g, H, H', rfl, rfl, hH⟩ := h
  unfold gnSolve solveLDLT
  simp only [hso.ldlt, if_true]
  split
  · rw [hL _ _ (symUpper_sym H), tmv_neg, hH]
    cases L.ldlt n (cong T (symUpper H)) (negVec (tmv T g)) with
    | none => exact .none
    | some v => exact .some ⟨v, rfl, rfl⟩
  · exact .none

theorem gnResize_rel {T : Mat ℝ n} {tx : X' → X} {P : Problem ℝ R W X} {P' : Problem ℝ R W X'} (h : Recoord T tx P P') (w : W)
    (s s' : GNState ℝ R) (hn : s.n = s'.n) (hd : ∀ d, P.dims = some d → s.n = d) :
    (∃ t t' w', gnResize P w s n = (.done t, w') ∧ gnResize P' w s' n = (.done t', w') ∧ t.n = n ∧ t'.n = n ∧
      (s.n = n → t = s ∧ t' = s')) ∨
    (∃ w', gnResize P w s n = (.badAlloc, w') ∧ gnResize P' w s' n = (.badAlloc, w')) ∨
    (∃ w', gnResize P w s n = (.invalidArg, w') ∧ gnResize P' w s' n = (.invalidArg, w')) := by
  unfold gnResize
  rw [← h.dims]
  cases hp : P.dims with
  | some d =>
    simp only
    have h1 := hd d hp
    by_cases e : (n : Int) = d
    · rw [if_pos e, if_pos e]
      have : n = d := by exact_mod_cast e
      exact Or.inl ⟨_, _, _, rfl, rfl, by omega, by omega, fun _ => ⟨rfl, rfl⟩⟩
    · rw [if_neg e, if_neg e]
      exact Or.inr (Or.inr ⟨_, rfl, rfl⟩)
  | none =>
    have h0 : ¬ ((n : Int) < 0) := by omega
    simp only [h0, if_false, ← hn]
    by_cases e : (s.n : Int) = n
    · rw [if_pos e, if_pos e]
      exact Or.inl ⟨_, _, _, rfl, rfl, by omega, by omega, fun _ => ⟨rfl, rfl⟩⟩
    · rw [if_neg e, if_neg e]
      obtain ⟨a1, a2⟩ := h.alloc w n
      simp only [Int.toNat_natCast] at *
      cases ha : P.alloc w n with
      | mk o1 w1 =>
        cases ha' : P'.alloc w n with
        | mk o2 w2 =>
          rw [ha, ha'] at a1 a2
          simp only at a1 a2
          subst a2
          cases o1 with
          | none =>
            cases o2 with
            | none => exact Or.inr (Or.inl ⟨_, rfl, rfl⟩)
            | some => cases a1
          | some p =>
            cases o2 with
            | none => cases a1
            | some p' =>
              exact Or.inl ⟨_, _, _, rfl, rfl, rfl, rfl, fun hh => absurd (by exact_mod_cast hh) e⟩

theorem gn_cosim {T : Mat ℝ n} {tx : X' → X} {P : Problem ℝ R W X} {P' : Problem ℝ R W X'} (h : Recoord T tx P P') {L : LinAlg ℝ}
    (hL : EquivLDLT L T) {so : SolverOpts ℝ} (hso : ScaleFree so) :
    CoSim (gnEnv so L P) (gnEnv so L P') (fun x y => x = tx y) (StepRelT T)
      (fun s s' => s.n = s'.n ∧ ∀ d, P.dims = some d → s.n = d)
      (fun s s' => s.n = n ∧ s'.n = n ∧ ∀ d, P.dims = some d → n = d)
      (fun s s' => SysRel T s s' ∧ ∀ d, P.dims = some d → n = d)
      (fun s s' => SysRel T s s' ∧ ∀ d, P.dims = some d → n = d) where
  dimsDynamic := by simp only [gnEnv, envOf, h.dims]
  dynDims := by rintro x y rfl; exact (h.dyn y).trans (h.dyn' y).symm
  plusEq := by rintro x y d d' rfl ⟨v, rfl, rfl⟩; exact h.plus y v
  negV := by rintro d d' ⟨v, rfl, rfl⟩; exact ⟨negVec v, by simp only [gnEnv, envOf, mv_negVec], rfl⟩
  normSq := fun _ _ _ => rfl
  clock := h.clock
  ratio1 := h.ratio1
  resize := by
    rintro w s s' x y rfl ⟨hn, hd⟩
    have e : (gnEnv so L P).dynDims (tx y) = n := h.dyn y
    rw [e]
    rcases gnResize_rel h w s s' hn hd with ⟨t, t', w', e1, e2, h1, h2, _⟩ | ⟨w', e1, e2⟩ | ⟨w', e1, e2⟩
    · refine Or.inl ⟨t, t', w', e1, e2, h1, h2, ?_⟩
      intro d hd'
      have := hd d hd'
      unfold gnResize at e1
      rw [hd'] at e1
      simp only at e1
      split at e1
      · next hh => exact_mod_cast hh
      · cases e1
    · exact Or.inr (Or.inl ⟨w', e1, e2⟩)
    · exact Or.inr (Or.inr ⟨w', e1, e2⟩)
  build := by
    rintro w s s' x y rfl ⟨hn, hn', hd⟩
    obtain ⟨b, t, t', w', e1, e2, hs⟩ := buildSystem_rel h hso w s s' y hn hn'
    refine ⟨b, t, t', w', e1, e2, ?_, ?_⟩
    · obtain ⟨c, g, H, H', rfl, rfl, -⟩ := hs; rfl
    · simp only [ite_self]; exact ⟨hs, hd⟩
  solve := fun s s' hs => gnSolve_rel hL hso _ _ s s' hs.1
  good := fun s s' q hs => hs
  bad := fun s s' hs => hs
  failedB := by rintro s s' ⟨⟨c, g, H, H', rfl, rfl, -⟩, hd⟩; exact ⟨rfl, rfl, hd⟩
  failedF := by rintro s s' ⟨⟨c, g, H, H', rfl, rfl, -⟩, hd⟩; exact ⟨rfl, rfl, hd⟩
  rebuild := by rintro s s' b ⟨⟨c, g, H, H', rfl, rfl, -⟩, hd⟩; exact ⟨rfl, hd⟩

/-- states of two `SolverLM` in different coordinates; the systems need only be related when they will be used again -/
structure LmRel (t : Vec ℝ n) (s s' : LMState ℝ R) : Prop where
  lambda : s.lambda = s'.lambda
  prev : s.prev = s'.prev
  badF : s.badF = s'.badF
  rebuild : s.rebuild = s'.rebuild
  sys : s.rebuild = true ∨ SysRel (diagM t) s.gn s'.gn

theorem lmDamp_rel {t : Vec ℝ n} (s s' : LMState ℝ R) (h : LmRel t s s') (hs : SysRel (diagM t) s.gn s'.gn) :
    SysRel (diagM t) (lmDamp s).gn (lmDamp s').gn ∧ LmRel t (lmDamp s) (lmDamp s') ∧ (lmDamp s).gn.cost = (lmDamp s').gn.cost := by
  obtain ⟨gs, l, p, b, r⟩ := s
  obtain ⟨gs', l', p', b', r'⟩ := s'
  obtain ⟨rfl, rfl, rfl, rfl, -⟩ := h
  obtain ⟨c, g, H, H', rfl, rfl, hH⟩ := hs
  have key : SysRel (diagM t) (lmDamp ⟨⟨n, g, H, c⟩, l, p, b, r⟩).gn (lmDamp ⟨⟨n, tmv (diagM t) g, H', c⟩, l, p, b, r⟩).gn := by
    unfold lmDamp
    split
    · refine ⟨_, _, _, _, rfl, rfl, ?_⟩
      simp only [symUpper_scaleDiag, hH, scaleDiag_cong]
    · exact ⟨_, _, _, _, rfl, rfl, hH⟩
  refine ⟨key, ⟨?_, ?_, ?_, ?_, Or.inr key⟩, ?_⟩ <;> unfold lmDamp <;> split <;> rfl

theorem lmClamp_rel {α : Type} {r : α → α → Prop} (so : SolverOpts ℝ) (v : ℝ) (f f' : ℝ → α) (h : ∀ l, r (f l) (f' l)) :
    Res.Rel r ((stdClamp v so.dampLo so.dampHi).map f) ((stdClamp v so.dampLo so.dampHi).map f') := by
  unfold stdClamp
  split
  · trivial
  · exact h _

theorem lm_cosim {t : Vec ℝ n} {tx : X' → X} {P : Problem ℝ R W X} {P' : Problem ℝ R W X'} (h : Recoord (diagM t) tx P P') {L : LinAlg ℝ}
    (hL : EquivLDLT L (diagM t)) {so : SolverOpts ℝ} (hso : ScaleFree so) :
    CoSim (lmEnv so L P) (lmEnv so L P') (fun x y => x = tx y) (StepRelT (diagM t))
      (fun s s' => LmRel t s s' ∧ s.gn.n = s'.gn.n ∧ ∀ d, P.dims = some d → s.gn.n = d)
      (fun s s' => LmRel t s s' ∧ s.gn.n = n ∧ s'.gn.n = n ∧ ∀ d, P.dims = some d → n = d)
      (fun s s' => LmRel t s s' ∧ SysRel (diagM t) s.gn s'.gn ∧ ∀ d, P.dims = some d → n = d)
      (fun s s' => LmRel t s s' ∧ SysRel (diagM t) s.gn s'.gn ∧ ∀ d, P.dims = some d → n = d) where
  dimsDynamic := by simp only [lmEnv, envOf, h.dims]
  dynDims := by rintro x y rfl; exact (h.dyn y).trans (h.dyn' y).symm
  plusEq := by rintro x y d d' rfl ⟨v, rfl, rfl⟩; exact h.plus y v
  negV := by rintro d d' ⟨v, rfl, rfl⟩; exact ⟨negVec v, by simp only [lmEnv, envOf, mv_negVec], rfl⟩
  normSq := fun _ _ _ => rfl
  clock := h.clock
  ratio1 := h.ratio1
  resize := by
    rintro w s s' x y rfl ⟨hl, hn, hd⟩
    have e : (lmEnv so L P).dynDims (tx y) = n := h.dyn y
    rw [e]
    simp only [lmEnv, envOf, lmSolver]
    rcases gnResize_rel h w s.gn s'.gn hn hd with ⟨g, g', w', e1, e2, h1, h2, h3⟩ | ⟨w', e1, e2⟩ | ⟨w', e1, e2⟩
    · refine Or.inl ⟨{ s with gn := g }, { s' with gn := g' }, w', by rw [e1], by rw [e2], ?_, h1, h2, ?_⟩
      · refine ⟨hl.lambda, hl.prev, hl.badF, hl.rebuild, ?_⟩
        rcases hl.sys with h4 | h4
        · exact Or.inl h4
        · have h5 : s.gn.n = n := by obtain ⟨c, gg, H, H', h6, -, -⟩ := h4; rw [h6]
          obtain ⟨rfl, rfl⟩ := h3 h5
          exact Or.inr h4
      · intro d hd'
        unfold gnResize at e1
        rw [hd'] at e1
        simp only at e1
        split at e1
        · next hh => exact_mod_cast hh
        · cases e1
    · exact Or.inr (Or.inl ⟨w', by rw [e1], by rw [e2]⟩)
    · exact Or.inr (Or.inr ⟨w', by rw [e1], by rw [e2]⟩)
  build := by
    rintro w ⟨gs, l, p, bf, r⟩ ⟨gs', l', p', bf', r'⟩ x y rfl ⟨⟨h1, h2, h3, h4, h5⟩, hn, hn', hd⟩
    simp only at h1 h2 h3 h4 h5 hn hn'
    subst h1; subst h2; subst h3; subst h4
    simp only [lmEnv, envOf, lmSolver]
    unfold lmBuild
    cases r with
    | true =>
      obtain ⟨b, g, g', w', e1, e2, hs⟩ := buildSystem_rel h hso w gs gs' y hn hn'
      simp only [e1, e2, if_true]
      have hl1 : LmRel t ⟨g, l, p, bf, true⟩ ⟨g', l, p, bf, true⟩ := ⟨rfl, rfl, rfl, rfl, Or.inr hs⟩
      cases b
      · refine ⟨false, _, _, w', rfl, rfl, ?_, ?_⟩
        · obtain ⟨c, gg, H, H', rfl, rfl, -⟩ := hs; rfl
        · exact ⟨hl1, hs, hd⟩
      · obtain ⟨k1, k2, k3⟩ := lmDamp_rel _ _ hl1 hs
        exact ⟨true, _, _, w', rfl, rfl, k3, k2, k1, hd⟩
    | false =>
      obtain ⟨c, g, H, H', rfl, rfl, hH⟩ := h5.resolve_left (by simp)
      unfold lmEvaluate
      simp only [h.eval w y, Bool.false_eq_true, if_false]
      have hs : SysRel (diagM t) (⟨n, g, H, normalizeCost so (P'.acc.eval w y).1⟩ : GNState ℝ R)
        ⟨n, tmv (diagM t) g, H', normalizeCost so (P'.acc.eval w y).1⟩ := ⟨_, _, _, _, rfl, rfl, hH⟩
      have hl1 : LmRel t ⟨⟨n, g, H, normalizeCost so (P'.acc.eval w y).1⟩, l, p, bf, false⟩
        ⟨⟨n, tmv (diagM t) g, H', normalizeCost so (P'.acc.eval w y).1⟩, l, p, bf, false⟩ :=
        ⟨rfl, rfl, rfl, rfl, Or.inr hs⟩
      by_cases hv : (normalizeCost so (P'.acc.eval w y).1).isValid = true
      · simp only [hv, if_true]
        obtain ⟨k1, k2, k3⟩ := lmDamp_rel _ _ hl1 hs
        exact ⟨true, _, _, _, rfl, rfl, k3, k2, k1, hd⟩
      · simp only [hv]
        exact ⟨false, _, _, _, rfl, rfl, rfl, hl1, hs, hd⟩
  solve := fun s s' hs => gnSolve_rel hL hso _ _ s.gn s'.gn hs.2.1
  good := by
    rintro s s' q ⟨hl, hs, hd⟩
    simp only [lmEnv, envOf, lmSolver, lmGood]
    rw [hl.lambda, hl.badF]
    exact lmClamp_rel so _ _ _ fun l => ⟨⟨rfl, hl.lambda ▸ rfl, rfl, hl.rebuild, Or.inr hs⟩, hs, hd⟩
  bad := by
    rintro s s' ⟨hl, hs, hd⟩
    simp only [lmEnv, envOf, lmSolver, lmBad]
    rw [hl.lambda, hl.badF]
    exact lmClamp_rel so _ _ _ fun l => ⟨⟨rfl, rfl, rfl, hl.rebuild, Or.inr hs⟩, hs, hd⟩
  failedB := by
    rintro s s' ⟨hl, hs, hd⟩
    simp only [lmEnv, envOf, lmSolver, lmBad]
    rw [hl.lambda, hl.badF]
    refine lmClamp_rel so _ _ _ fun l => ⟨⟨rfl, rfl, rfl, hl.rebuild, Or.inr hs⟩, ?_, ?_, hd⟩ <;>
      (obtain ⟨c, g, H, H', e1, e2, -⟩ := hs; simp [e1, e2])
  failedF := by
    rintro s s' ⟨hl, hs, hd⟩
    simp only [lmEnv, envOf, lmSolver, lmBad]
    rw [hl.lambda, hl.badF]
    refine lmClamp_rel so _ _ _ fun l => ⟨⟨rfl, rfl, rfl, hl.rebuild, Or.inr hs⟩, ?_, ?_, hd⟩ <;>
      (obtain ⟨c, g, H, H', e1, e2, -⟩ := hs; simp [e1, e2])
  rebuild := by
    rintro s s' b ⟨hl, hs, hd⟩
    refine ⟨⟨hl.lambda, hl.prev, hl.badF, rfl, Or.inr hs⟩, ?_, ?_⟩ <;>
      (obtain ⟨c, g, H, H', e1, e2, -⟩ := hs; simp only [lmEnv, envOf, lmSolver, e1, e2]; try exact hd)

/-- **C76, Gauss-Newton.** Solving the problem in the coordinates `y` with `x = tx y` gives the same run: same outcome, and if the runs
return, the same costs, the same decisions, the same stop reason, and at every iteration `x = tx y` and `dx = T dy`. -/
theorem C76_gn {T : Mat ℝ n} {tx : X' → X} {P : Problem ℝ R W X} {P' : Problem ℝ R W X'} (h : Recoord T tx P P') {L : LinAlg ℝ}
    (hL : EquivLDLT L T) {so : SolverOpts ℝ} (hso : ScaleFree so) {o : Options ℝ W (DVec ℝ)} (ho : CostOnly o) (fuel : Nat) (mi : Int)
    (w : W) (y : X') (s s' : GNState ℝ R) (hn : s.n = s'.n) (hd : ∀ d, P.dims = some d → s.n = d) :
    Res.Rel (CoFinal (fun x y => x = tx y) (StepRelT T)) (optimizeAcc (gnEnv so L P) o fuel mi w s (tx y))
      (optimizeAcc (gnEnv so L P') o fuel mi w s' y) :=
  run_cosim (gn_cosim h hL hso) (optRel_costOnly ho T) fuel mi w s s' _ _ rfl ⟨hn, hd⟩

/-- **C76, Levenberg-Marquardt.** The same for a rescaling of the parameters, `x_i = t_i y_i`, with a newly constructed solver. -/
theorem C76_lm {t : Vec ℝ n} {tx : X' → X} {P : Problem ℝ R W X} {P' : Problem ℝ R W X'} (h : Recoord (diagM t) tx P P') {L : LinAlg ℝ}
    (hL : EquivLDLT L (diagM t)) {so : SolverOpts ℝ} (hso : ScaleFree so) {o : Options ℝ W (DVec ℝ)} (ho : CostOnly o) (fuel : Nat) (mi : Int)
    (w : W) (y : X') (g : Vec ℝ (P.dims.getD 0)) (H : Mat ℝ (P.dims.getD 0)) (g' : Vec ℝ (P'.dims.getD 0)) (H' : Mat ℝ (P'.dims.getD 0)) :
    Res.Rel (CoFinal (fun x y => x = tx y) (StepRelT (diagM t))) (optimizeAcc (lmEnv so L P) o fuel mi w (lmFresh so P g H) (tx y))
      (optimizeAcc (lmEnv so L P') o fuel mi w (lmFresh so P' g' H') y) := by
  refine run_cosim (lm_cosim h hL hso) (optRel_costOnly ho _) fuel mi w _ _ _ _ rfl ⟨⟨rfl, rfl, rfl, rfl, Or.inl rfl⟩, ?_, ?_⟩
  · simp only [lmFresh, lmReset, gnFresh, h.dims]
  · intro d hd
    simp only [lmFresh, lmReset, gnFresh, hd, Option.getD_some]

/-- product of the Jacobian with the matrix of the change of coordinates -/
def jacT (A : Fin m → Fin n → ℝ) (T : Mat ℝ n) : Fin m → Fin n → ℝ := fun i j => ∑ k, A i k * T k j

theorem tmv_jacT (A : Fin m → Fin n → ℝ) (T : Mat ℝ n) (v : Vec ℝ m) : tmv (jacT A T) v = tmv T (tmv A v) := by
  funext j
  simp only [tmv, jacT, sum_mul, mul_sum]
  rw [sum_comm]
  exact sum_congr rfl fun k _ => sum_congr rfl fun i _ => by ring

theorem gram_jacT (A : Fin m → Fin n → ℝ) (T : Mat ℝ n) : gram (jacT A T) = cong T (gram A) := by
  funext i j
  simp only [gram, jacT, cong, sum_mul, mul_sum]
  conv_rhs => rw [sum_comm]
  rw [sum_comm]
  refine sum_congr rfl fun l _ => ?_
  rw [sum_comm]
  refine sum_congr rfl fun k _ => ?_
  exact sum_congr rfl fun q _ => by ring

/-- the residuals `r(x)` and the residuals `r(T y)` of a user are the same problem in different coordinates -/
theorem nlsProb_recoord (r : Vec ℝ n → Vec ℝ m) (J : Vec ℝ n → Fin m → Fin n → ℝ) (T : Mat ℝ n) :
    Recoord T (mv T) (nlsProb r J) (nlsProb (fun y => r (mv T y)) (fun y => jacT (J (mv T y)) T)) where
  dims := rfl
  dyn _ := rfl
  dyn' _ := rfl
  plus y v := by
    have h1 : (nlsProb (fun y => r (mv T y)) (fun y => jacT (J (mv T y)) T)).plusEq y ⟨n, v⟩ = y + v := by
      funext i; simp [nlsProb]
    rw [h1, mv_add]
    funext i; simp [nlsProb]
  clock := rfl
  ratio1 := rfl
  alloc _ _ := ⟨rfl, rfl⟩
  full w y := by
    refine ⟨{ cost := dotR (r (mv T y)) (r (mv T y)), num := m, inlier := 1 }, tmv (J (mv T y)) (r (mv T y)),
      gram (J (mv T y)), gram (jacT (J (mv T y)) T), w, ?_, ?_, ?_⟩
    · simp only [nlsProb]
      congr 3
      · funext i; simp
      · funext i j; simp
    · simp only [nlsProb, ← tmv_jacT]
      congr 3
      · funext i; simp
      · funext i j; simp
    · rw [symUpper_of_sym (gram_sym _), symUpper_of_sym (gram_sym _), gram_jacT]
  eval _ _ := rfl

/-- **C76 for least squares.** For any residuals, any invertible matrix `T` and a linear solver that is exact on positive definite systems
and refuses the others, Gauss-Newton on `r(T y)` from `y` and on `r(x)` from `T y` do the same. -/
theorem C76_gn_residuals (r : Vec ℝ n → Vec ℝ m) (J : Vec ℝ n → Fin m → Fin n → ℝ) {T S : Mat ℝ n} (hTS : ∀ v, mv T (mv S v) = v)
    (hST : ∀ v, mv S (mv T v) = v) {L : LinAlg ℝ} (hL : PDLinAlg L) {so : SolverOpts ℝ} (hso : ScaleFree so)
    {o : Options ℝ Unit (DVec ℝ)} (ho : CostOnly o) (fuel : Nat) (mi : Int) (y : Vec ℝ n) (g g' : Vec ℝ 0) (H H' : Mat ℝ 0) :
    Res.Rel (CoFinal (fun x y => x = mv T y) (StepRelT T))
      (optimizeAcc (gnEnv so L (nlsProb r J)) o fuel mi () (gnFresh (nlsProb r J) g H) (mv T y))
      (optimizeAcc (gnEnv so L (nlsProb (fun y => r (mv T y)) (fun y => jacT (J (mv T y)) T))) o fuel mi ()
        (gnFresh (nlsProb (fun y => r (mv T y)) (fun y => jacT (J (mv T y)) T)) g' H') y) :=
  C76_gn (nlsProb_recoord r J T) (pdLinAlg_equiv hL hTS hST) hso ho fuel mi () y _ _ rfl (fun d hd => by cases hd)

theorem mv_diagM (t v : Vec ℝ n) : mv (diagM t) v = fun i => t i * v i := by
  funext i; simp [mv, diagM]

/-- **C76 for least squares.** The same for Levenberg-Marquardt and units `t_i ≠ 0` of the parameters. -/
theorem C76_lm_residuals (r : Vec ℝ n → Vec ℝ m) (J : Vec ℝ n → Fin m → Fin n → ℝ) {t : Vec ℝ n} (ht : ∀ i, t i ≠ 0)
    {L : LinAlg ℝ} (hL : PDLinAlg L) {so : SolverOpts ℝ} (hso : ScaleFree so)
    {o : Options ℝ Unit (DVec ℝ)} (ho : CostOnly o) (fuel : Nat) (mi : Int) (y : Vec ℝ n) (g g' : Vec ℝ 0) (H H' : Mat ℝ 0) :
    Res.Rel (CoFinal (fun x y => x = mv (diagM t) y) (StepRelT (diagM t)))
      (optimizeAcc (lmEnv so L (nlsProb r J)) o fuel mi () (lmFresh so (nlsProb r J) g H) (mv (diagM t) y))
      (optimizeAcc (lmEnv so L (nlsProb (fun y => r (mv (diagM t) y)) (fun y => jacT (J (mv (diagM t) y)) (diagM t)))) o fuel mi ()
        (lmFresh so (nlsProb (fun y => r (mv (diagM t) y)) (fun y => jacT (J (mv (diagM t) y)) (diagM t))) g' H') y) := by
  refine C76_lm (nlsProb_recoord r J (diagM t)) (pdLinAlg_equiv hL (S := diagM fun i => (t i)⁻¹) ?_ ?_) hso ho fuel mi () y g H g' H'
  · intro v; funext i; simp [mv_diagM, ht i]
  · intro v; funext i; simp [mv_diagM, ht i]

end

theorem someLinAlg_pd : PDLinAlg someLinAlg where
  exact := someLinAlg_exact.ldlt
  refuse n A b h := by simp [someLinAlg, h]

/-- hypotheses of `C76_gn_residuals`: a shear of two parameters, default options without the criteria on step and gradient -/
example (k : Nat) : PDLinAlg someLinAlg ∧ ScaleFree soptsR ∧ CostOnly (optsR k) ∧
    (∀ v, mv (fun i j => if i ≤ j then 1 else 0 : Mat ℝ 2) (mv (fun i j => if i = j then 1 else if i ≤ j then -1 else 0) v) = v) ∧
    (∀ v, mv (fun i j => if i = j then 1 else if i ≤ j then -1 else 0 : Mat ℝ 2) (mv (fun i j => if i ≤ j then 1 else 0) v) = v) := by
  refine ⟨someLinAlg_pd, ⟨rfl, le_refl _, rfl⟩, ⟨le_refl _, le_refl _, (fun cb h => by cases h), rfl⟩, ?_, ?_⟩ <;>
    (intro v; funext i; fin_cases i <;> simp [mv, Fin.sum_univ_two])

/-- hypotheses of `C76_lm_residuals`: metres and millimetres -/
example (k : Nat) : PDLinAlg someLinAlg ∧ ScaleFree soptsR ∧ CostOnly (optsR k) ∧
    (∀ i : Fin 2, (fun i => if i = 0 then 1 else 1000 : Vec ℝ 2) i ≠ 0) := by
  refine ⟨someLinAlg_pd, ⟨rfl, le_refl _, rfl⟩, ⟨le_refl _, le_refl _, (fun cb h => by cases h), rfl⟩, ?_⟩
  intro i; fin_cases i <;> norm_num

/-! The conditions are needed: gradient descent, clipping, the check of the diagonal, the criterion on the step and
Levenberg-Marquardt with a shear depend on the coordinates. -/

/-- cost `x^2`, and the same for `x = t y` -/
def quadT (t : D) : Problem D D Nat D :=
  prob1 (fun y => (mul (mul t y) (mul t y), mul t (mul t y), mul t t)) (fun _ => 1) none

/-- exact solution of systems with two unknowns, for positive definite matrices -/
def lin2 : LinAlg D where
  ldlt := fun n A b =>
    if h : n = 2 then
      let a := A ⟨0, by omega⟩ ⟨0, by omega⟩
      let c := A ⟨0, by omega⟩ ⟨1, by omega⟩
      let e := A ⟨1, by omega⟩ ⟨1, by omega⟩
      let u := b ⟨0, by omega⟩
      let v := b ⟨1, by omega⟩
      let d := sub (mul a e) (mul c c)
      if lt (ofInt 0) a && lt (ofInt 0) d then
        some fun i => if i.1 = 0 then div (sub (mul e u) (mul c v)) d else div (sub (mul a v) (mul c u)) d
      else none
    else none
  inv := fun _ _ => fun _ _ => ofInt 0

/-- residuals `(x, y)` for `k = 0`, and `(x + y, y)` for `k = 1`: the change of coordinates is a shear -/
def shear (k : Int) : Problem D D Nat (D × D) where
  acc :=
    { full := fun w p _ _ _ =>
        let a := add p.1 (mul (ofInt k) p.2)
        (({ cost := add (mul a a) (mul p.2 p.2), num := 2, inlier := ofInt 1 },
          fun i => if i.1 = 0 then a else add (mul (ofInt k) a) p.2,
          fun i j => if i.1 = 0 ∧ j.1 = 0 then ofInt 1 else if i.1 = 0 ∨ j.1 = 0 then ofInt k else ofInt (1 + k * k)), w + 1)
      eval := fun w p =>
        let a := add p.1 (mul (ofInt k) p.2)
        ({ cost := add (mul a a) (mul p.2 p.2), num := 2, inlier := ofInt 1 }, w) }
  dims := none
  dynDims := fun _ => 2
  plusEq := fun x d => if h : d.n = 2 then (add x.1 (d.v ⟨0, by omega⟩), add x.2 (d.v ⟨1, by omega⟩)) else x
  clock := fun w => (ofInt 1, w)
  alloc := fun w _ => (some (fun _ => ofInt 7, fun _ _ => ofInt 7), w)
  ratio1 := ofInt 1

/-- costs of a run -/
def Res.errs {F R W S X V M : Type} : Res (LoopSt F R W S X V M) → List F
  | .ok st => st.out.errs
  | _ => []

/-- reason for which a run stops -/
def Res.stopOf {F R W S X V M : Type} : Res (LoopSt F R W S X V M) → Option StopReason
  | .ok st => some st.out.stop
  | _ => none

/-- **Gradient descent, clipping, the check of the diagonal, the criterion on the step and Levenberg-Marquardt with a shear depend on the
coordinates**: the same problem in other units (`x = 2 y`) or after the shear has other costs or stops for another reason. Gauss-Newton with
the shear has the same costs (as `C76_gn` says). -/
theorem C76_conditions :
    (optimizeAcc (gdEnv { sopts1 with lr := div (ofInt 1) (ofInt 4) } (quadT (ofInt 1))) (opts1 2) 1000 (-1) 0 gn0 (ofInt 1)).errs ≠
      (optimizeAcc (gdEnv { sopts1 with lr := div (ofInt 1) (ofInt 4) } (quadT (ofInt 2))) (opts1 2) 1000 (-1) 0 gn0 (div (ofInt 1) (ofInt 2))).errs ∧
    (optimizeAcc (gnEnv { sopts1 with gradClip := div (ofInt 1) (ofInt 2) } lin1 (quadT (ofInt 1))) (opts1 2) 1000 (-1) 0 gn0 (ofInt 1)).errs ≠
      (optimizeAcc (gnEnv { sopts1 with gradClip := div (ofInt 1) (ofInt 2) } lin1 (quadT (ofInt 2))) (opts1 2) 1000 (-1) 0 gn0 (div (ofInt 1) (ofInt 2))).errs ∧
    (optimizeAcc (gnEnv { sopts1 with checkMinHDiag := ofInt 2 } lin1 (quadT (ofInt 1))) (opts1 2) 1000 (-1) 0 gn0 (ofInt 1)).stopOf ≠
      (optimizeAcc (gnEnv { sopts1 with checkMinHDiag := ofInt 2 } lin1 (quadT (ofInt 2))) (opts1 2) 1000 (-1) 0 gn0 (div (ofInt 1) (ofInt 2))).stopOf ∧
    (optimizeAcc (gnEnv sopts1 lin1 (quadT (ofInt 1))) { opts1 2 with minStepNorm2 := div (ofInt 1) (ofInt 2) } 1000 (-1) 0 gn0 (ofInt 1)).errs ≠
      (optimizeAcc (gnEnv sopts1 lin1 (quadT (ofInt 2))) { opts1 2 with minStepNorm2 := div (ofInt 1) (ofInt 2) } 1000 (-1) 0 gn0 (div (ofInt 1) (ofInt 2))).errs ∧
    (optimizeAcc (lmEnv { sopts1 with dampInit := ofInt 1 } lin2 (shear 0)) (opts1 2) 1000 (-1) 0 ⟨gn0, ofInt 1, ofInt 0, ofInt 2, true⟩ (ofInt 1, ofInt 0)).errs ≠
      (optimizeAcc (lmEnv { sopts1 with dampInit := ofInt 1 } lin2 (shear 1)) (opts1 2) 1000 (-1) 0 ⟨gn0, ofInt 1, ofInt 0, ofInt 2, true⟩ (ofInt 1, ofInt 0)).errs ∧
    (optimizeAcc (gnEnv sopts1 lin2 (shear 0)) (opts1 2) 1000 (-1) 0 gn0 (ofInt 1, ofInt 1)).errs =
      (optimizeAcc (gnEnv sopts1 lin2 (shear 1)) (opts1 2) 1000 (-1) 0 gn0 (ofInt 0, ofInt 1)).errs := by
  decide +kernel

end Verif
