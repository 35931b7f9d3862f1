import Verif.Lemmas.NumHom
import Verif.Model.EigenLDLT
import Verif.Props.SignedZero
/-!
# The solvers with and without signed zeros

Forgetting the signs of zeros commutes with the solvers: no divisor in them is ever `-0`.
-/

namespace Verif
open FloatOps

section
variable {F F' R W X : Type}

/-- the same vector, matrix, ... in another arithmetic -/
def DVec.mapN (φ : F → F') (d : DVec F) : DVec F' := ⟨d.n, fun i => φ (d.v i)⟩
def DMat.mapN (φ : F → F') (d : DMat F) : DMat F' := ⟨d.n, fun i j => φ (d.m i j)⟩
def GNState.mapN (φ : F → F') (s : GNState F R) : GNState F' R := ⟨s.n, fun i => φ (s.g i), fun i j => φ (s.H i j), s.cost.mapN φ⟩
def LMState.mapN (φ : F → F') (s : LMState F R) : LMState F' R := ⟨s.gn.mapN φ, φ s.lambda, φ s.prev, φ s.badF, s.rebuild⟩
def SolverOpts.mapN (φ : F → F') (so : SolverOpts F) : SolverOpts F' where
  useSquaredNorm := so.useSquaredNorm
  downscaleBy2 := so.downscaleBy2
  normalize := so.normalize
  gradClip := φ so.gradClip
  useLdlt := so.useLdlt
  hIsFull := so.hIsFull
  checkMinHDiag := φ so.checkMinHDiag
  dampInit := φ so.dampInit
  dampLo := φ so.dampLo
  dampHi := φ so.dampHi
  goodFactor := φ so.goodFactor
  badFactor := φ so.badFactor
  lr := φ so.lr

/-- The same problem in another arithmetic: the functions of the user give results that `φ` maps to each other. -/
structure ProbNum {X' : Type} [FloatOps F] [FloatOps F'] (φ : F → F') (ξ : X → X') (P : Problem F R W X) (P' : Problem F' R W X') : Prop where
  dims : P'.dims = P.dims
  dynDims : ∀ x, P'.dynDims (ξ x) = P.dynDims x
  plusEq : ∀ x d, P'.plusEq (ξ x) (d.mapN φ) = ξ (P.plusEq x d)
  clock : ∀ w, P'.clock w = (φ (P.clock w).1, (P.clock w).2)
  alloc : ∀ w n, P'.alloc w n = ((P.alloc w n).1.map fun p => (fun i => φ (p.1 i), fun i j => φ (p.2 i j)), (P.alloc w n).2)
  ratio1 : P'.ratio1 = P.ratio1
  full : ∀ w x n, P'.acc.full w (ξ x) n (fun _ => ofInt 0) (fun _ _ => ofInt 0) =
    (((P.acc.full w x n (fun _ => ofInt 0) (fun _ _ => ofInt 0)).1.1.mapN φ, fun i => φ ((P.acc.full w x n (fun _ => ofInt 0) (fun _ _ => ofInt 0)).1.2.1 i),
      fun i j => φ ((P.acc.full w x n (fun _ => ofInt 0) (fun _ _ => ofInt 0)).1.2.2 i j)), (P.acc.full w x n (fun _ => ofInt 0) (fun _ _ => ofInt 0)).2)
  eval : ∀ w x, P'.acc.eval w (ξ x) = ((P.acc.eval w x).1.mapN φ, (P.acc.eval w x).2)

/-- the same linear algebra in another arithmetic -/
structure LinNum (φ : F → F') (L : LinAlg F) (L' : LinAlg F') : Prop where
  ldlt : ∀ n A b, L'.ldlt n (fun i j => φ (A i j)) (fun i => φ (b i)) = (L.ldlt n A b).map fun v i => φ (v i)
  inv : ∀ n A, L'.inv n (fun i j => φ (A i j)) = fun i j => φ (L.inv n A i j)

end

section
variable {f : Fmt} {R W X X' : Type} {n : ℕ}
open SFl (num negz sgn)

namespace SFl

theorem nadd (x y : SFl f) : (FloatOps.add x y).num = FloatOps.add x.num y.num := num_add x y
theorem nsub (x y : SFl f) : (FloatOps.sub x y).num = FloatOps.sub x.num y.num := num_sub x y
theorem nmul (x y : SFl f) : (FloatOps.mul x y).num = FloatOps.mul x.num y.num := num_mul x y
theorem nneg (x : SFl f) : (FloatOps.neg x).num = FloatOps.neg x.num := num_neg x
theorem nofInt (z : ℤ) : (FloatOps.ofInt z : SFl f).num = FloatOps.ofInt z := rfl
theorem nlt (x y : SFl f) : FloatOps.lt x y = FloatOps.lt x.num y.num := rfl
theorem neq (x y : SFl f) : FloatOps.eq x y = FloatOps.eq x.num y.num := rfl
theorem nne (x y : SFl f) : FloatOps.ne x y = FloatOps.ne x.num y.num := rfl
theorem ncube (x : SFl f) : (cube x).num = cube x.num := by
  show (SFl.mul (SFl.mul x x) x).num = _
  rw [num_mul, num_mul]; rfl
theorem ndiv (x y : SFl f) (h : y ≠ negz) : (FloatOps.div x y).num = FloatOps.div x.num y.num := num_div x y h

theorem nite (c : Prop) [Decidable c] (a b : SFl f) : (if c then a else b).num = if c then a.num else b.num := apply_ite _ _ _ _

theorem sgn_nonneg {q : ℚ} (hq : 0 ≤ q) : sgn (of (Fl.mk q : Fl f)) = false := by
  cases h : isZ (Fl.mk q : Fl f) with
  | true =>
    cases hm : (Fl.mk q : Fl f) with
    | fin r hr => rw [hm] at h; simp only [isZ, decide_eq_true_eq] at h; simp [sgn, h]
    | _ => rw [hm] at h; simp [isZ] at h
  | false => rw [sgn_mk h, decide_eq_false_iff_not]; exact not_lt.2 hq

theorem sgn_ofInt {z : ℤ} (hz : 0 ≤ z) : sgn (FloatOps.ofInt z : SFl f) = false := sgn_nonneg (by exact_mod_cast hz)

theorem ofInt_ne (z : ℤ) : (FloatOps.ofInt z : SFl f) ≠ negz := fun h => by cases h

/-- a sum with a number that is not negative is never `-0` -/
theorem add_ne {x : SFl f} (y : SFl f) (h : sgn x = false) : FloatOps.add x y ≠ negz := by
  show withSign (sgn x && sgn y) _ ≠ negz
  rw [h]
  unfold withSign
  simp

theorem ne_of_sgn {x : SFl f} (h : sgn x = false) : x ≠ negz := fun e => by rw [e] at h; cases h

theorem ne_of_lt {t x : SFl f} (ht : FloatOps.lt t (FloatOps.ofInt 0) = false) (h : FloatOps.lt t (absF x) = true) : x ≠ negz := by
  rintro rfl
  have e : (absF (negz : SFl f)).num = FloatOps.ofInt 0 := by
    have h0 : FloatOps.lt (negz : SFl f) (FloatOps.ofInt 0) = false := by
      show Fl.lt zeroFl (FloatOps.ofInt 0) = false
      rw [Fl.ofInt_zero]; simp [Fl.lt, zeroFl]
    unfold absF
    rw [h0, if_neg (by simp), Fl.ofInt_zero]
    rfl
  rw [nlt, e] at h
  rw [nlt, nofInt] at ht
  rw [ht] at h
  cases h

theorem sgn_mul_pos {x y : SFl f} (hx : sgn x = false) (hy : sgn y = false) : sgn (FloatOps.mul x y) = false := by
  cases h : FloatOps.isNaN (FloatOps.mul x y) with
  | true =>
    have h1 : Fl.isNaN (FloatOps.mul x y).num = true := h
    cases hm : FloatOps.mul x y with
    | negz => rw [hm] at h1; cases h1
    | of a =>
      rw [hm] at h1
      cases a <;> first | rfl | cases h1
  | false => exact (sgn_mul h).trans (by rw [hx, hy]; rfl)

end SFl

open SFl

/-- what the optimizer itself does with numbers does not depend on the signs of zeros: its only divisor is a cost greater than `eps` -/
theorem numMap (he : 0 ≤ f.epsq) : NumMap (num : SFl f → Fl f) where
  add := nadd
  sub := nsub
  ofInt := nofInt
  lt := nlt
  isNaN _ := rfl
  isInf _ := rfl
  maxVal := rfl
  scalarMax := rfl
  rel a b := by
    unfold relDerr
    rw [nlt, nlt, nite]
    have e1 : (eps : SFl f).num = eps := rfl
    have e2 : (scalarMax : SFl f).num = scalarMax := rfl
    rw [e1, e2]
    split
    next h =>
      rw [Bool.and_eq_true] at h
      rw [ndiv, nsub]
      rintro rfl
      have h1 : Fl.lt (Fl.mk f.epsq) (zeroFl : Fl f) = true := h.1
      have h2 := f.rnd_nonneg he
      revert h1
      unfold Fl.mk Fl.ofGrid zeroFl
      split
      · simp [Fl.lt, h2]
      · split
        · simp [Fl.lt]
        next h3 h4 =>
          intro
          have h5 := le_antisymm (not_lt.1 h4) h2
          exact h3 (by rw [h5, abs_zero]; exact f.max_pos.le)
    · rfl

theorem num_sumF : ∀ {n : ℕ} (v : Vec (SFl f) n), (sumF v).num = sumF fun i => (v i).num
  | 0, _ => rfl
  | n + 1, v => by unfold sumF; rw [nadd, num_sumF]

theorem num_sqNorm (v : Vec (SFl f) n) : (sqNorm v).num = sqNorm fun i => (v i).num := by
  unfold sqNorm; rw [num_sumF]; simp only [nmul]

theorem num_absF (a : SFl f) : (absF a).num = absF a.num := by
  unfold absF; rw [nite, nneg]; rfl

theorem num_clampCoef (m a : SFl f) : (clampCoef m a).num = clampCoef m.num a.num := by
  unfold clampCoef; simp only [nite, nneg, nlt]

theorem num_clampVec (m : SFl f) (g : Vec (SFl f) n) (i : Fin n) : (clampVec m g i).num = clampVec m.num (fun i => (g i).num) i := by
  unfold clampVec
  rw [SFl.neq, nofInt]
  split
  · rfl
  · exact num_clampCoef _ _

theorem num_normalizeCost (h0 : f.sqrtq 0 = 0) (so : SolverOpts (SFl f)) (c : Cost (SFl f) R) :
    (normalizeCost so c).mapN num = normalizeCost (so.mapN num) (c.mapN num) := by
  have e : ∀ x : SFl f, (FloatOps.sqrt x).num = FloatOps.sqrt x.num := num_sqrt h0
  have e' : (half : SFl f).num = half := rfl
  unfold normalizeCost Cost.mapN SolverOpts.mapN
  simp only [nite, ndiv _ _ (SFl.ofInt_ne _), nmul, e, e', nofInt]

theorem num_lowDiag (t : SFl f) (H : Mat (SFl f) n) : lowDiag t H = lowDiag t.num fun i j => (H i j).num := by
  unfold lowDiag; simp only [nlt, num_absF]

theorem num_symUpper (H : Mat (SFl f) n) : (fun i j => (symUpper H i j).num) = symUpper fun i j => (H i j).num := by
  funext i j; unfold symUpper; exact nite _ _ _

theorem num_valid (c : Cost (SFl f) R) : (c.mapN num).isValid = c.isValid := rfl

theorem num_stdClamp (v lo hi : SFl f) : stdClamp v.num lo.num hi.num = (stdClamp v lo hi).map num := by
  unfold stdClamp
  simp only [← nlt, ← nite]
  split <;> rfl

variable {P : Problem (SFl f) R W X} {P' : Problem (Fl f) R W X'} {ξ : X → X'} {L : LinAlg (SFl f)} {L' : LinAlg (Fl f)} {so : SolverOpts (SFl f)}

theorem num_gnResize (hP : ProbNum num ξ P P') (w : W) (s : GNState (SFl f) R) (d : ℤ) :
    gnResize P' w (s.mapN num) d = ((gnResize P w s d).1.map (GNState.mapN num), (gnResize P w s d).2) := by
  unfold gnResize
  rw [hP.dims]
  cases P.dims with
  | some k => simp only; split <;> rfl
  | none =>
    simp only
    split
    · rfl
    · have : (s.mapN num).n = s.n := rfl
      rw [this]
      split
      · rfl
      · rw [hP.alloc]
        rcases P.alloc w d.toNat with ⟨_ | ⟨g, H⟩, w'⟩ <;> rfl

theorem num_gnAccumulate (h0 : f.sqrtq 0 = 0) (hP : ProbNum num ξ P P') (w : W) (s : GNState (SFl f) R) (x : X) :
    gnAccumulate (so.mapN num) P' w (s.mapN num) (ξ x) = ((gnAccumulate so P w s x).1.mapN num, (gnAccumulate so P w s x).2) := by
  unfold gnAccumulate
  simp only [GNState.mapN, hP.full, num_normalizeCost h0]

theorem num_buildSystem (h0 : f.sqrtq 0 = 0) (hP : ProbNum num ξ P P') (w : W) (s : GNState (SFl f) R) (x : X) :
    buildSystem (so.mapN num) P' w (s.mapN num) (ξ x) = ((buildSystem so P w s x).1, (buildSystem so P w s x).2.1.mapN num, (buildSystem so P w s x).2.2) := by
  unfold buildSystem
  rw [num_gnAccumulate h0 hP]
  rcases gnAccumulate so P w s x with ⟨s1, w1⟩
  have e1 : (s1.mapN num).cost.isValid = s1.cost.isValid := rfl
  have e2 : (FloatOps.lt (FloatOps.ofInt 0) (so.mapN num).checkMinHDiag && lowDiag (so.mapN num).checkMinHDiag (s1.mapN num).H) =
      (FloatOps.lt (FloatOps.ofInt 0) so.checkMinHDiag && lowDiag so.checkMinHDiag s1.H) := by rw [num_lowDiag]; rfl
  have e3 : ((!(so.mapN num).hIsFull && !(so.mapN num).useLdlt)) = (!so.hIsFull && !so.useLdlt) := rfl
  have e4 : clampVec (so.mapN num).gradClip (s1.mapN num).g = fun i => (clampVec so.gradClip s1.g i).num := by
    funext i; exact (num_clampVec _ _ _).symm
  simp only [e1, e2, e3, e4]
  split
  · split
    · rfl
    · split
      · show (true, (⟨s1.n, _, symUpper fun i j => (s1.H i j).num, _⟩ : GNState (Fl f) R), w1) = _
        rw [← num_symUpper]; rfl
      · rfl
  · rfl

theorem num_mulVecF (A : Mat (SFl f) n) (v : Vec (SFl f) n) : (fun i => (mulVecF A v i).num) = mulVecF (fun i j => (A i j).num) fun i => (v i).num := by
  funext i; unfold mulVecF; rw [num_sumF]; simp only [nmul]

theorem num_gnSolve (hL : LinNum num L L') (one : Bool) (s : GNState (SFl f) R) :
    gnSolve (so.mapN num) L' one (s.mapN num) = (gnSolve so L one s).map (DVec.mapN num) := by
  have e1 : (s.mapN num).cost.isValid = s.cost.isValid := rfl
  have e2 : (so.mapN num).useLdlt = so.useLdlt := rfl
  have e3 : solveLDLT L' (s.mapN num).H (negVec (s.mapN num).g) = (solveLDLT L s.H (negVec s.g)).map fun v i => (v i).num := by
    unfold solveLDLT
    rw [← hL.ldlt, num_symUpper]
    congr 1
    funext i; exact (nneg _).symm
  have e4 : (⟨(s.mapN num).n, mulVecF (fun i j => FloatOps.neg (L'.inv (s.mapN num).n (s.mapN num).H i j)) (s.mapN num).g⟩ : DVec (Fl f)) =
      DVec.mapN num ⟨s.n, mulVecF (fun i j => FloatOps.neg (L.inv s.n s.H i j)) s.g⟩ := by
    unfold DVec.mapN
    have := num_mulVecF (fun i j => FloatOps.neg (L.inv s.n s.H i j)) s.g
    have e5 : L'.inv s.n (s.mapN num).H = _ := hL.inv s.n s.H
    show (⟨s.n, mulVecF (fun i j => FloatOps.neg (L'.inv s.n (s.mapN num).H i j)) (s.mapN num).g⟩ : DVec (Fl f)) = ⟨s.n, fun i => (mulVecF (fun i j => FloatOps.neg (L.inv s.n s.H i j)) s.g i).num⟩
    rw [this, e5]
    simp only [nneg]
    rfl
  have e6 : ∀ h : 0 < s.n, FloatOps.lt eps ((s.mapN num).H ⟨0, h⟩ ⟨0, h⟩) = FloatOps.lt eps (s.H ⟨0, h⟩ ⟨0, h⟩) := fun _ => rfl
  unfold gnSolve
  rw [e1, e2, e3]
  simp only [e4]
  split
  · split
    · cases solveLDLT L s.H (negVec s.g) <;> rfl
    · split
      · by_cases h : 0 < s.n
        · rw [dif_pos h, dif_pos (show 0 < (s.mapN num).n from h)]
          have := e6 h
          split
          next h1 => rw [if_pos (this.symm.trans h1)]; rfl
          next h1 => rw [if_neg (fun h2 => h1 (this.trans h2))]; rfl
        · rw [dif_neg h, dif_neg (show ¬0 < (s.mapN num).n from h)]; rfl
      · rfl
  · rfl

theorem num_lmDamp (s : LMState (SFl f) R) : lmDamp (s.mapN num) = (lmDamp s).mapN num := by
  have e1 : FloatOps.lt (FloatOps.ofInt 0) (s.mapN num).lambda = FloatOps.lt (FloatOps.ofInt 0) s.lambda := rfl
  have e2 : (s.mapN num).rebuild = s.rebuild := rfl
  have e3 : (if s.rebuild = true then FloatOps.add (FloatOps.ofInt 1) (s.mapN num).lambda else FloatOps.div (FloatOps.add (FloatOps.ofInt 1) (s.mapN num).lambda) (FloatOps.add (FloatOps.ofInt 1) (s.mapN num).prev)) =
      (if s.rebuild = true then FloatOps.add (FloatOps.ofInt 1) s.lambda else FloatOps.div (FloatOps.add (FloatOps.ofInt 1) s.lambda) (FloatOps.add (FloatOps.ofInt 1) s.prev)).num := by
    rw [nite, ndiv _ _ (add_ne _ (sgn_ofInt (by norm_num))), nadd, nadd]; rfl
  unfold lmDamp
  rw [e1, e2, e3]
  split
  · simp only [LMState.mapN, GNState.mapN]
    congr 2
    funext i j
    unfold scaleDiag
    by_cases h : i = j
    · rw [if_pos h, if_pos h, nmul]
    · rw [if_neg h, if_neg h]
  · rfl

theorem num_lmBuild (h0 : f.sqrtq 0 = 0) (hP : ProbNum num ξ P P') (w : W) (s : LMState (SFl f) R) (x : X) :
    lmBuild (so.mapN num) P' w (s.mapN num) (ξ x) = ((lmBuild so P w s x).1, (lmBuild so P w s x).2.1.mapN num, (lmBuild so P w s x).2.2) := by
  have e1 : (s.mapN num).rebuild = s.rebuild := rfl
  have e2 : (s.mapN num).gn = s.gn.mapN num := rfl
  unfold lmBuild
  rw [e1, e2, num_buildSystem h0 hP]
  split
  · rcases buildSystem so P w s.gn x with ⟨b, g1, w1⟩
    cases b
    · rfl
    · simp only [if_true]
      rw [← num_lmDamp]; rfl
  · have e3 : lmEvaluate (so.mapN num) P' w (s.gn.mapN num) (ξ x) = ((lmEvaluate so P w s.gn x).1.mapN num, (lmEvaluate so P w s.gn x).2) := by
      unfold lmEvaluate
      rw [hP.eval]
      simp only [GNState.mapN, num_normalizeCost h0]
    rw [e3]
    rcases lmEvaluate so P w s.gn x with ⟨g1, w1⟩
    have e4 : (g1.mapN num).cost.isValid = g1.cost.isValid := rfl
    simp only [e4]
    split
    · rw [← num_lmDamp]; rfl
    · rfl

theorem num_goodScale (q b : SFl f) (hb : sgn b = false) : (goodScale so q b).num = goodScale (so.mapN num) q.num b.num := by
  unfold goodScale
  simp only [nite, ndiv _ _ (ne_of_sgn hb), nsub, ncube, nmul, nofInt, nlt, nne]
  rfl

theorem num_lmGood (s : LMState (SFl f) R) (q : SFl f) (hb : sgn s.badF = false) : lmGood (so.mapN num) (s.mapN num) q.num = (lmGood so s q).map (LMState.mapN num) := by
  unfold lmGood
  have e : FloatOps.mul (s.mapN num).lambda (goodScale (so.mapN num) q.num (s.mapN num).badF) = (FloatOps.mul s.lambda (goodScale so q s.badF)).num := by
    rw [nmul, num_goodScale _ _ hb]; rfl
  rw [e]
  show (stdClamp _ so.dampLo.num so.dampHi.num).map _ = _
  rw [num_stdClamp]
  cases stdClamp (FloatOps.mul s.lambda (goodScale so q s.badF)) so.dampLo so.dampHi <;> rfl

theorem num_lmBad (s : LMState (SFl f) R) : lmBad (so.mapN num) (s.mapN num) = (lmBad so s).map (LMState.mapN num) := by
  unfold lmBad
  have e : FloatOps.mul (s.mapN num).lambda (s.mapN num).badF = (FloatOps.mul s.lambda s.badF).num := (nmul _ _).symm
  have e' : FloatOps.mul (s.mapN num).badF (so.mapN num).badFactor = (FloatOps.mul s.badF so.badFactor).num := (nmul _ _).symm
  rw [e, e']
  show (stdClamp _ so.dampLo.num so.dampHi.num).map _ = _
  rw [num_stdClamp]
  cases stdClamp (FloatOps.mul s.lambda s.badF) so.dampLo so.dampHi <;> rfl

theorem num_lmHessian (s : LMState (SFl f) R) : lmHessian (s.mapN num) = (lmHessian s).mapN num := by
  have e1 : FloatOps.lt (FloatOps.ofInt 0) (s.mapN num).prev = FloatOps.lt (FloatOps.ofInt 0) s.prev := rfl
  unfold lmHessian
  rw [e1]
  split
  · unfold DMat.mapN
    simp only [nite, ndiv _ _ (add_ne _ (sgn_ofInt (by norm_num : (0 : ℤ) ≤ 1))), nadd]
    rfl
  · rfl

/-! the decomposition -/

/-- the same column -/
def LdltCol.mapN (c : LdltCol (SFl f) n) : LdltCol (Fl f) n := ⟨c.p, c.d.num, fun i => (c.l i).num⟩

theorem num_ldltDot (done : List (LdltCol (SFl f) n)) (i j : Fin n) : (ldltDot done i j).num = ldltDot (done.map LdltCol.mapN) i j := by
  unfold ldltDot
  have : ∀ a : SFl f, (done.foldl (fun a c => FloatOps.add a (FloatOps.mul (c.l i) (FloatOps.mul c.d (c.l j)))) a).num =
      (done.map LdltCol.mapN).foldl (fun a c => FloatOps.add a (FloatOps.mul (c.l i) (FloatOps.mul c.d (c.l j)))) a.num := by
    induction done with
    | nil => intro a; rfl
    | cons c cs ih =>
      intro a
      simp only [List.foldl_cons, List.map_cons]
      rw [ih, nadd, nmul, nmul]; rfl
  exact this _

theorem num_ldltRest (A : Mat (SFl f) n) (done : List (LdltCol (SFl f) n)) (i j : Fin n) :
    (ldltRest A done i j).num = ldltRest (fun i j => (A i j).num) (done.map LdltCol.mapN) i j := by
  unfold ldltRest; rw [nsub, num_ldltDot]

theorem num_ldltPick (A : Mat (SFl f) n) (a : Fin n) (t : List (Fin n)) : ldltPick A a t = ldltPick (fun i j => (A i j).num) a t := by
  unfold ldltPick; simp only [nlt, num_absF]

theorem num_ldltSign (s : LdltSign) (d : SFl f) : ldltSign s d = ldltSign s d.num := by
  cases s <;> rfl

theorem num_ldltGo (A : Mat (SFl f) n) : ∀ (k : ℕ) (done : List (LdltCol (SFl f) n)) (t : List (Fin n)) (found : Bool) (s : LdltSign),
    ldltGo (fun i j => (A i j).num) k (done.map LdltCol.mapN) t found s = (ldltGo A k done t found s).map fun p => (p.1.map LdltCol.mapN, p.2) := by
  intro k
  induction k with
  | zero => intro done t found s; cases t <;> rfl
  | succ k ih =>
    intro done t found s
    cases t with
    | nil => rfl
    | cons a t =>
      unfold ldltGo
      simp only [← num_ldltPick, ← num_ldltRest]
      generalize hp : ldltPick A a t = p
      have e1 : FloatOps.lt (FloatOps.ofInt 0) (absF (ldltRest A done p p).num) = FloatOps.lt (FloatOps.ofInt 0) (absF (ldltRest A done p p)) := by
        rw [nlt, num_absF]; rfl
      have e2 : (done.map LdltCol.mapN).isEmpty = done.isEmpty := by cases done <;> rfl
      have e3 : ∀ i j, FloatOps.eq (A i j).num (FloatOps.ofInt 0) = FloatOps.eq (A i j) (FloatOps.ofInt 0) := fun _ _ => rfl
      have e4 : ∀ i, FloatOps.eq (ldltRest A done i p).num (FloatOps.ofInt 0) = FloatOps.eq (ldltRest A done i p) (FloatOps.ofInt 0) := fun _ => rfl
      simp only [e1, e2, e3, e4, ← num_ldltSign]
      split
      · split
        · simp [LdltCol.mapN, nofInt]
        · rfl
      · split
        next hv =>
          split
          · rfl
          · rw [← ih]
            congr 1
            rw [List.map_append, List.map_singleton]
            have hd := ne_of_lt (t := FloatOps.ofInt 0) (FloatLaws.lt_irrefl _) hv
            simp only [LdltCol.mapN, ndiv _ _ hd]
        next =>
          split
          · rw [← ih, List.map_append, List.map_singleton]; rfl
          · rfl

theorem num_ldltSolve {tol : SFl f} (ht : FloatOps.lt tol (FloatOps.ofInt 0) = false) : ∀ (cs : List (LdltCol (SFl f) n)) (b : Vec (SFl f) n),
    ldltSolve tol.num (cs.map LdltCol.mapN) (fun i => (b i).num) = fun i => (ldltSolve tol cs b i).num := by
  intro cs
  induction cs with
  | nil => intro b; rfl
  | cons c cs ih =>
    intro b
    have e1 : ∀ (x : Vec (SFl f) n) (a : SFl f), (cs.foldl (fun a c' => FloatOps.add a (FloatOps.mul (c.l c'.p) (x c'.p))) a).num =
        (cs.map LdltCol.mapN).foldl (fun a c' => FloatOps.add a (FloatOps.mul (c.mapN.l c'.p) ((fun i => (x i).num) c'.p))) a.num := by
      intro x
      clear ih
      induction cs with
      | nil => intro a; rfl
      | cons d ds ih =>
        intro a
        simp only [List.foldl_cons, List.map_cons]
        rw [ih, nadd, nmul]; rfl
    have e2 : (fun i => FloatOps.sub (b i).num (FloatOps.mul (b c.p).num (c.mapN.l i))) = fun i => (FloatOps.sub (b i) (FloatOps.mul (b c.p) (c.l i))).num := by
      funext i; rw [nsub, nmul]; rfl
    have e3 : (if FloatOps.lt tol.num (absF c.mapN.d) = true then FloatOps.div (b c.p).num c.mapN.d else FloatOps.ofInt 0) =
        (if FloatOps.lt tol (absF c.d) = true then FloatOps.div (b c.p) c.d else FloatOps.ofInt 0).num := by
      have hl : FloatOps.lt tol.num (absF c.mapN.d) = FloatOps.lt tol (absF c.d) := by rw [nlt, num_absF]; rfl
      rw [hl, nite]
      split
      next h => rw [ndiv _ _ (SFl.ne_of_lt ht h)]; rfl
      next => rfl
    funext i
    simp only [List.map_cons, ldltSolve]
    have e4 : c.mapN.p = c.p := rfl
    rw [e4, e2, ih, e3]
    by_cases h : i = c.p
    · rw [if_pos h, if_pos h, nsub, e1]; rfl
    · rw [if_neg h, if_neg h]

theorem num_eigen {tol : SFl f} (ht : FloatOps.lt tol (FloatOps.ofInt 0) = false) {inv : (n : ℕ) → Mat (SFl f) n → Mat (SFl f) n} {inv' : (n : ℕ) → Mat (Fl f) n → Mat (Fl f) n}
    (hi : ∀ n A, inv' n (fun i j => (A i j).num) = fun i j => (inv n A i j).num) : LinNum num (eigenLinAlg tol inv) (eigenLinAlg tol.num inv') where
  inv := hi
  ldlt n A b := by
    show eigenLdlt _ _ _ _ = Option.map _ (eigenLdlt _ _ _ _)
    unfold eigenLdlt
    have := num_ldltGo A n [] (List.finRange n) false .zero
    rw [List.map_nil] at this
    rw [this]
    rcases ldltGo A n [] (List.finRange n) false .zero with _ | ⟨cols, s⟩
    · rfl
    · simp only [Option.map_some]
      split
      · rw [num_ldltSolve ht]; rfl
      · rfl

/-! the three optimizers -/

theorem gn_numHom (h0 : f.sqrtq 0 = 0) (hP : ProbNum num ξ P P') (hL : LinNum num L L') :
    NumHom (gnEnv so L P) (gnEnv (so.mapN num) L' P') num ξ (DVec.mapN num) (GNState.mapN num) (DMat.mapN num) (fun _ => True) where
  dimsDynamic := by show P'.dims.isNone = P.dims.isNone; rw [hP.dims]
  dynDims := hP.dynDims
  plusEq := hP.plusEq
  negV d := by
    show (⟨d.n, fun i => FloatOps.neg (d.v i).num⟩ : DVec (Fl f)) = ⟨d.n, fun i => (FloatOps.neg (d.v i)).num⟩
    simp only [nneg]
  normSq d := (num_sqNorm d.v).symm
  clock := hP.clock
  ratio1 := hP.ratio1
  firstOrder := rfl
  resize w s d _ := ⟨num_gnResize hP w s d, fun _ _ => trivial⟩
  build w s x _ := ⟨num_buildSystem h0 hP w s x, trivial⟩
  solve s _ := by
    show gnSolve _ _ (P'.dims == some 1) _ = _
    rw [hP.dims]; exact num_gnSolve hL _ s
  cost _ := rfl
  gradSq s := (num_sqNorm s.g).symm
  gradient _ := rfl
  good _ _ _ := ⟨rfl, fun _ _ => trivial⟩
  bad _ _ := ⟨rfl, fun _ _ => trivial⟩
  failed _ _ := ⟨rfl, fun _ _ => trivial⟩
  rebuild _ _ _ := ⟨rfl, trivial⟩
  hessian _ _ := rfl

theorem gd_numHom (h0 : f.sqrtq 0 = 0) (hP : ProbNum num ξ P P') :
    NumHom (gdEnv so P) (gdEnv (so.mapN num) P') num ξ (DVec.mapN num) (GNState.mapN num) (DMat.mapN num) (fun _ => True) where
  dimsDynamic := by show P'.dims.isNone = P.dims.isNone; rw [hP.dims]
  dynDims := hP.dynDims
  plusEq := hP.plusEq
  negV d := by
    show (⟨d.n, fun i => FloatOps.neg (d.v i).num⟩ : DVec (Fl f)) = ⟨d.n, fun i => (FloatOps.neg (d.v i)).num⟩
    simp only [nneg]
  normSq d := (num_sqNorm d.v).symm
  clock := hP.clock
  ratio1 := hP.ratio1
  firstOrder := rfl
  resize w s d _ := ⟨num_gnResize hP w s d, fun _ _ => trivial⟩
  build w s x _ := by
    refine ⟨?_, trivial⟩
    show gdBuild _ _ _ _ _ = ((gdBuild so P w s x).1, _)
    unfold gdBuild
    rw [num_gnAccumulate h0 hP]
    show (_, (⟨_, clampVec so.gradClip.num (fun i => ((gnAccumulate so P w s x).1.g i).num), _, _⟩ : GNState (Fl f) R), _) = _
    have : clampVec so.gradClip.num (fun i => ((gnAccumulate so P w s x).1.g i).num) = fun i => (clampVec so.gradClip (gnAccumulate so P w s x).1.g i).num := by
      funext i; exact (num_clampVec _ _ _).symm
    rw [this]; rfl
  solve s _ := by
    show gdSolve _ _ = (gdSolve so s).map _
    unfold gdSolve
    have e1 : (s.mapN num).cost.isValid = s.cost.isValid := rfl
    rw [e1]
    split
    · simp only [Option.map_some, DVec.mapN, nmul, nneg]; rfl
    · rfl
  cost _ := rfl
  gradSq s := (num_sqNorm s.g).symm
  gradient _ := rfl
  good _ _ _ := ⟨rfl, fun _ _ => trivial⟩
  bad _ _ := ⟨rfl, fun _ _ => trivial⟩
  failed _ _ := ⟨rfl, fun _ _ => trivial⟩
  rebuild _ _ _ := ⟨rfl, trivial⟩
  hessian _ _ := rfl

theorem lmBad_sgn (hb : sgn so.badFactor = false) (s t : LMState (SFl f) R) (hs : sgn s.badF = false) (h : lmBad so s = .ok t) : sgn t.badF = false := by
  unfold lmBad at h
  cases hc : stdClamp (FloatOps.mul s.lambda s.badF) so.dampLo so.dampHi with
  | ok l => rw [hc] at h; cases h; exact sgn_mul_pos hs hb
  | _ => rw [hc] at h; cases h

theorem lm_numHom (h0 : f.sqrtq 0 = 0) (hb : sgn so.badFactor = false) (hP : ProbNum num ξ P P') (hL : LinNum num L L') :
    NumHom (lmEnv so L P) (lmEnv (so.mapN num) L' P') num ξ (DVec.mapN num) (LMState.mapN num) (DMat.mapN num) (fun s => sgn s.badF = false) where
  dimsDynamic := by show P'.dims.isNone = P.dims.isNone; rw [hP.dims]
  dynDims := hP.dynDims
  plusEq := hP.plusEq
  negV d := by
    show (⟨d.n, fun i => FloatOps.neg (d.v i).num⟩ : DVec (Fl f)) = ⟨d.n, fun i => (FloatOps.neg (d.v i)).num⟩
    simp only [nneg]
  normSq d := (num_sqNorm d.v).symm
  clock := hP.clock
  ratio1 := hP.ratio1
  firstOrder := rfl
  resize w s d hs := by
    have h1 := num_gnResize hP w s.gn d
    have h2 : (s.mapN num).gn = s.gn.mapN num := rfl
    simp only [lmEnv, envOf, lmSolver, h2]
    rw [h1]
    rcases gnResize P w s.gn d with ⟨r, w'⟩
    cases r with
    | done g => exact ⟨rfl, fun t h => by cases h; exact hs⟩
    | badAlloc => exact ⟨rfl, fun t h => by cases h⟩
    | invalidArg => exact ⟨rfl, fun t h => by cases h⟩
  build w s x hs := by
    refine ⟨num_lmBuild h0 hP w s x, ?_⟩
    have hd : ∀ s : LMState (SFl f) R, (lmDamp s).badF = s.badF := fun s => by unfold lmDamp; split <;> rfl
    show sgn (lmBuild so P w s x).2.1.badF = false
    unfold lmBuild
    split
    · rcases buildSystem so P w s.gn x with ⟨b, g1, w1⟩
      cases b
      · exact hs
      · simp only [if_true]; rw [hd]; exact hs
    · rcases lmEvaluate so P w s.gn x with ⟨g1, w1⟩
      simp only
      split
      · rw [hd]; exact hs
      · exact hs
  solve s _ := by
    show gnSolve _ _ (P'.dims == some 1) _ = _
    rw [hP.dims]; exact num_gnSolve hL _ s.gn
  cost _ := rfl
  gradSq s := (num_sqNorm s.gn.g).symm
  gradient _ := rfl
  good s q hs := by
    refine ⟨num_lmGood s q hs, fun t h => ?_⟩
    have h : lmGood so s q = .ok t := h
    unfold lmGood at h
    cases hc : stdClamp (FloatOps.mul s.lambda (goodScale so q s.badF)) so.dampLo so.dampHi with
    | ok l => rw [hc] at h; cases h; exact hb
    | _ => rw [hc] at h; cases h
  bad s hs := ⟨num_lmBad s, fun t h => lmBad_sgn hb s t hs h⟩
  failed s hs := ⟨num_lmBad s, fun t h => lmBad_sgn hb s t hs h⟩
  rebuild _ _ hs := ⟨rfl, hs⟩
  hessian s _ := num_lmHessian s

end
end Verif
