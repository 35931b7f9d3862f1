import Verif.Lemmas.NumSolvers
import Verif.Props.FloatLmN
/-!
# C132: whole runs with signed zeros
-/

namespace Verif
open FloatOps
open SFl (num negz sgn)

theorem sqrt_zero64 : Fmt.binary64.sqrtq 0 = 0 := by
  have h := Fmt.binary64.sqrt_nonneg 0
  show rndBin _ _ (sqrtTrunc _ 0) = 0
  have e : ∀ k, sqrtTrunc k 0 = 0 := fun k => by
    have h1 := (sqrtTrunc_spec k (le_refl 0)).1
    have h2 := sqrtTrunc_nonneg k 0
    nlinarith
  rw [e]
  exact Fmt.binary64.rnd_zero

theorem epsq64_nonneg : 0 ≤ Fmt.binary64.epsq := by decide +kernel

/-- rounding keeps the sign -/
theorem mk_not_neg {f : Fmt} {q : ℚ} (h : 0 ≤ q) : lt (Fl.mk q : Fl f) (ofInt 0) = false := by
  have h2 := f.rnd_nonneg h
  rw [Fl.ofInt_zero]
  show Fl.lt (Fl.mk q) _ = false
  unfold Fl.mk Fl.ofGrid
  split
  · simp [Fl.lt, h2]
  next h3 =>
    split
    · simp [Fl.lt]
    next h4 =>
      have h5 := le_antisymm (not_lt.1 h4) h2
      exact absurd (by rw [h5, abs_zero]; exact f.max_pos.le) h3

section
variable {R W X X' : Type} {P : Problem (SFl Fmt.binary64) R W X} {P' : Problem F64 R W X'} {ξ : X → X'} {so : SolverOpts (SFl Fmt.binary64)} {tol : SFl Fmt.binary64}
variable {inv : (n : ℕ) → Mat (SFl Fmt.binary64) n → Mat (SFl Fmt.binary64) n} {inv' : (n : ℕ) → Mat F64 n → Mat F64 n}
variable {o : Options (SFl Fmt.binary64) W (DVec (SFl Fmt.binary64))} {o' : Options F64 W (DVec F64)}

/-- **C132, Levenberg-Marquardt.** A run in IEEE `double` arithmetic with signed zeros, from any state of the solver and any start, is the run with one zero up to the signs of zeros: the same outcome, stop
reason, counters, history, trace, parameters and Hessian. The functions of the user may look at the sign of a zero as long as their results do not depend on it, except for the sign of a zero (`ProbNum`).
`bad_factor` must not be negative. -/
theorem C132_lm (hb : sgn so.badFactor = false) (ht : lt tol (ofInt 0) = false) (hi : ∀ n A, inv' n (fun i j => num (A i j)) = fun i j => num (inv n A i j)) (hP : ProbNum num ξ P P')
    (ho : OptNum num (DVec.mapN num) o o') (fuel : Nat) (mi : Int) (w : W) (s : LMState (SFl Fmt.binary64) R) (hs : sgn s.badF = false) (x : X) :
    optimizeAcc (lmEnv (so.mapN num) (eigenLinAlg tol.num inv') P') o' fuel mi w (s.mapN num) (ξ x) =
      (optimizeAcc (lmEnv so (eigenLinAlg tol inv) P) o fuel mi w s x).map (LoopSt.mapN num ξ (DVec.mapN num) (LMState.mapN num) (DMat.mapN num)) :=
  run_num (numMap epsq64_nonneg) (lm_numHom sqrt_zero64 hb hP (num_eigen ht hi)) ho fuel mi w s x hs

/-- **C132, Gauss-Newton.** As `C132_lm`. -/
theorem C132_gn (ht : lt tol (ofInt 0) = false) (hi : ∀ n A, inv' n (fun i j => num (A i j)) = fun i j => num (inv n A i j)) (hP : ProbNum num ξ P P')
    (ho : OptNum num (DVec.mapN num) o o') (fuel : Nat) (mi : Int) (w : W) (s : GNState (SFl Fmt.binary64) R) (x : X) :
    optimizeAcc (gnEnv (so.mapN num) (eigenLinAlg tol.num inv') P') o' fuel mi w (s.mapN num) (ξ x) =
      (optimizeAcc (gnEnv so (eigenLinAlg tol inv) P) o fuel mi w s x).map (LoopSt.mapN num ξ (DVec.mapN num) (GNState.mapN num) (DMat.mapN num)) :=
  run_num (numMap epsq64_nonneg) (gn_numHom sqrt_zero64 hP (num_eigen ht hi)) ho fuel mi w s x trivial

/-- **C132, gradient descent.** As `C132_lm`. -/
theorem C132_gd (hP : ProbNum num ξ P P') (ho : OptNum num (DVec.mapN num) o o') (fuel : Nat) (mi : Int) (w : W) (s : GNState (SFl Fmt.binary64) R) (x : X) :
    optimizeAcc (gdEnv (so.mapN num) P') o' fuel mi w (s.mapN num) (ξ x) =
      (optimizeAcc (gdEnv so P) o fuel mi w s x).map (LoopSt.mapN num ξ (DVec.mapN num) (GNState.mapN num) (DMat.mapN num)) :=
  run_num (numMap epsq64_nonneg) (gd_numHom sqrt_zero64 hP) ho fuel mi w s x trivial

end

section
variable {n : ℕ}

/-- `jacTest` with signed zeros -/
def jacTestS (z : Vec (SFl Fmt.binary64) n) : Problem (SFl Fmt.binary64) F64 Nat (Vec (SFl Fmt.binary64) n) where
  dims := some n
  dynDims := fun _ => n
  plusEq := fun x d i => if h : i.1 < d.n then add (x i) (d.v ⟨i.1, h⟩) else x i
  clock := fun w => (ofInt 0, w)
  alloc := fun w _ => (some (fun _ => ofInt 0, fun _ _ => ofInt 0), w)
  ratio1 := ofInt 1
  acc :=
    { full := fun w x m _ _ =>
        let J : Fin n → Fin m → SFl Fmt.binary64 := fun k i => if k.1 = i.1 then ofInt 1 else ofInt 0
        let r : Vec (SFl Fmt.binary64) n := fun i => sub (x i) (z i)
        (({ cost := sqNorm r, num := n, inlier := ofInt 1 }, fun i => sumF fun k => mul (J k i) (r k), fun i j => sumF fun k => mul (J k i) (J k j)), w)
      eval := fun w x => ({ cost := sqNorm fun i => sub (x i) (z i), num := n, inlier := ofInt 1 }, w) }

theorem jacTestS_num (z : Vec (SFl Fmt.binary64) n) : ProbNum num (fun x i => num (x i)) (jacTestS z) (jacTest fun i => num (z i)) where
  dims := rfl
  dynDims _ := rfl
  plusEq x d := by
    funext i
    show (if h : i.1 < d.n then FloatOps.add (num (x i)) (num (d.v ⟨i.1, h⟩)) else num (x i)) = num (if h : i.1 < d.n then FloatOps.add (x i) (d.v ⟨i.1, h⟩) else x i)
    by_cases h : i.1 < d.n
    · rw [dif_pos h, dif_pos h, SFl.nadd]
    · rw [dif_neg h, dif_neg h]
  clock _ := rfl
  alloc _ _ := rfl
  ratio1 := rfl
  full w x m := by
    simp only [jacTest, jacTestS, Cost.mapN, num_sqNorm, num_sumF, SFl.nmul, SFl.nsub, SFl.nite, SFl.nofInt]
    rfl
  eval w x := by
    simp only [jacTest, jacTestS, Cost.mapN, num_sqNorm, SFl.nsub]
    rfl

/-- the default options with signed zeros -/
def litSZ (q : ℚ) : SFl Fmt.binary64 := .of (litD q)

def testOptsSZ (b : Bool) : Options (SFl Fmt.binary64) Nat (DVec (SFl Fmt.binary64)) := { defaultOptions litSZ with checkFinalCost := b }

/-- any inverse, up to the signs of zeros -/
def invS (inv : (n : ℕ) → Mat F64 n → Mat F64 n) : (n : ℕ) → Mat (SFl Fmt.binary64) n → Mat (SFl Fmt.binary64) n := fun n A i j => .of (inv n (fun i j => num (A i j)) i j)

/-- **C132, the tests of user-defined parameters.** `C131_lm` with signed zeros: tests/userdef_params.cpp:66-112 and tests/types.cpp:44-49, 74-90, in IEEE `double` arithmetic with both zeros, for all targets of magnitude up to
`1e6` and all starts at most `1e139` away, zeros of either sign included. -/
theorem C132_tests {z x0 : Vec (SFl Fmt.binary64) n} (hn0 : 0 < n) (hn : n ≤ 1000) {c q0 : Fin n → ℚ} (hz : ∀ i, Val (num (z i)) (c i)) (hc : ∀ i, |c i| ≤ 10 ^ 6)
    (hx0 : ∀ i, Val (num (x0 i)) (q0 i)) (hfar : ∀ i, |q0 i - c i| ≤ 10 ^ 139) (b : Bool) (inv : (n : ℕ) → Mat F64 n → Mat F64 n)
    (g : Vec (SFl Fmt.binary64) ((jacTestS z).dims.getD 0)) (H : Mat (SFl Fmt.binary64) ((jacTestS z).dims.getD 0)) (fuel w : Nat) :
    ∃ st, optimizeAcc (lmEnv (defaultSolverOpts litSZ) (eigenLinAlg (.of (Fl.mk (1 / 2 ^ 1022))) (invS inv)) (jacTestS z)) (testOptsSZ b) (fuel + 1) (-1) w
        (lmFresh (defaultSolverOpts litSZ) (jacTestS z) g H) x0 = .ok st ∧
      st.out.succeeded = true ∧ st.out.converged = true ∧ st.trace.length ≤ 39 ∧ (∀ r ∈ st.trace, r.succ = true) ∧
      ∃ y : Fin n → ℚ, ∀ i, Val (num (st.x i)) (y i) ∧ |y i - c i| ≤ 1 / 10 ^ 9 := by
  obtain ⟨t, ht, ht2⟩ := val_tol
  obtain ⟨st', e', h1, h2, -, h3, h4, h5⟩ := C131_lm (inv := inv) (jacTest_loc (fun i => num (z i)) hn0) (costS_sqNorm (hn.trans (by norm_num))) hn hz hc ht ht2 b hx0 hfar
    (fun i => num (g i)) (fun i j => num (H i j)) fuel w
  have hlit : sgn (defaultSolverOpts litSZ).badFactor = false := by
    show sgn (SFl.of (Fl.mk _)) = false
    exact SFl.sgn_nonneg (Fmt.rnd_nonneg _ (by norm_num))
  have htol : lt (SFl.of (Fl.mk (1 / 2 ^ 1022)) : SFl Fmt.binary64) (ofInt 0) = false := by
    rw [SFl.nlt, SFl.nofInt]
    exact mk_not_neg (by positivity)
  have hrun := C132_lm (so := defaultSolverOpts litSZ) (tol := .of (Fl.mk (1 / 2 ^ 1022))) (inv := invS inv) (inv' := inv) (o := testOptsSZ b) (o' := testOptsD b) hlit htol (fun _ _ => rfl) (jacTestS_num z)
    ⟨rfl, rfl, rfl, rfl, rfl, rfl, rfl, rfl, rfl, rfl, rfl, rfl, rfl⟩ (fuel + 1) (-1) w (lmFresh (defaultSolverOpts litSZ) (jacTestS z) g H) hlit x0
  have hfresh : (lmFresh (defaultSolverOpts litSZ) (jacTestS z) g H).mapN num = lmFresh (defaultSolverOpts litD) (jacTest fun i => num (z i)) (fun i => num (g i)) (fun i j => num (H i j)) := rfl
  rw [hfresh] at hrun
  have hrun := hrun.symm.trans e'
  cases hr : optimizeAcc (lmEnv (defaultSolverOpts litSZ) (eigenLinAlg (.of (Fl.mk (1 / 2 ^ 1022))) (invS inv)) (jacTestS z)) (testOptsSZ b) (fuel + 1) (-1) w
        (lmFresh (defaultSolverOpts litSZ) (jacTestS z) g H) x0 with
  | ok st =>
    rw [hr] at hrun
    cases hrun
    refine ⟨st, rfl, h1, h2, ?_, ?_, h5⟩
    · simpa [LoopSt.mapN] using h3
    · intro r hr
      exact h4 _ (List.mem_map_of_mem hr)
  | _ => rw [hr] at hrun; cases hrun

/-- tests/userdef_params.cpp:66-112 from the rectangle with the points `(-0, 0)` and `(1, 1)` -/
example (inv : (n : ℕ) → Mat F64 n → Mat F64 n) :
    ∃ st, optimizeAcc (lmEnv (defaultSolverOpts litSZ) (eigenLinAlg (.of (Fl.mk (1 / 2 ^ 1022))) (invS inv)) (jacTestS fun i => .of (rect1234 i))) (testOptsSZ false) 1 (-1) 0
        (lmFresh (defaultSolverOpts litSZ) (jacTestS fun i => .of (rect1234 i)) (fun _ => ofInt 0) fun _ _ => ofInt 0) ![negz, ofInt 0, ofInt 1, ofInt 1] = .ok st ∧
      st.out.succeeded = true ∧ ∃ y : Fin 4 → ℚ, ∀ i, Val (num (st.x i)) (y i) ∧ |y i - ![1, 2, 3, 4] i| ≤ 1 / 10 ^ 9 := by
  obtain ⟨st, e, h1, -, -, -, h2⟩ := C132_tests (z := fun i => .of (rect1234 i)) (x0 := ![negz, ofInt 0, ofInt 1, ofInt 1]) (by norm_num) (by norm_num) rect1234_val
    (fun i => by fin_cases i <;> simp <;> norm_num) (q0 := ![0, 0, 1, 1])
    (fun i => by
      fin_cases i
      · exact ⟨_, rfl⟩
      · exact val_zero
      · exact val_one
      · exact val_one)
    (fun i => le_big139 (by fin_cases i <;> simp <;> norm_num)) false inv (fun _ => ofInt 0) (fun _ _ => ofInt 0) 0 0
  exact ⟨st, e, h1, h2⟩

end
end Verif
