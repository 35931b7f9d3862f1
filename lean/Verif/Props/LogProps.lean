import Verif.Model.Log
import Verif.Lemmas.RunInv
import Verif.Lemmas.RealLin
import Verif.Props.OutputStats
import Verif.Examples.Solver1
import Verif.Examples.Toy
/-!
# C64, C65: `MaxStdDev` and logging
-/

set_option linter.unusedSectionVars false

namespace Verif
open FloatOps

section
variable {F R W S X V M : Type} [FloatOps F]
variable {E : Env F R W S X V M} {o : Options F W V} {hook : S → Res Unit}

variable {Px : X → Prop} {I Z : S → Prop} {B N A : X → S → Prop}

/-- an iteration that does not end the run keeps the invariants -/
theorem body_keeps (h : RunInv E Px I Z B N A) {fuel : Nat} {last : Bool} {st st' : LoopSt F R W S X V M}
    (hb : body E o fuel last st = .ok st') (hx : Px st.x) (hI : I st.s) (hn : st'.out.stop = .kNone) : Px st'.x ∧ I st'.s := by
  obtain ⟨succ, mdx, w1, s1, out1, ms, hstep, hs⟩ := body_spec' hb
  have h2 := step_runinv h.toStepInv hx hI hstep
  obtain ⟨b, hb⟩ := hs.solver
  refine ⟨?_, ?_⟩
  · have := hs.upd
    revert this
    generalize st'.x = x1
    generalize st'.lastDx = l1
    generalize st'.lastSucc = b1
    intro this
    cases this with
    | succ dx => exact h.plus _ _ hx
    | roll d _ _ => exact h.plus _ _ hx
    | adv dx _ => exact h.plus _ _ hx
    | stay _ => exact hx
  · have hn1 : out1.stop = .kNone := by
      rw [hs.out] at hn
      simp only [timeStop] at hn
      split at hn
      · cases hn
      · exact hn
    rw [hb]
    rcases h2 with ⟨-, h2, -⟩ | ⟨t, dx', hB, hsol, hp, -, -, -, hA⟩
    · rw [hn1] at h2; exact absurd h2 (by decide)
    · split at hA
      · exact h.rebuildA _ _ _ hA
      · subst hA; exact h.rebuildB _ _ _ hB

/-- a step that succeeded was solved from the final state, up to `GoodStep` -/
theorem step_success (hinv : StepInv E Px I Z B N A) {fuel : Nat} {w : W} {s : S} {x : X} {out : Output F R M} {p w' s' out'}
    (hx : Px x) (hI : I s) (h : step E o fuel w s x out = .ok (p, w', s', out')) (hp : p.1 = true) :
    ∃ t, B x t ∧ (E.sol.solve t).isSome = true ∧ (s' = t ∨ ∃ q, E.sol.goodStep t q = .ok s') := by
  unfold step at h
  split at h
  · injection h with h; obtain ⟨rfl, -, rfl, rfl⟩ := h; cases hp
  next hr =>
    rw [Res.bind_eq_ok] at h
    obtain ⟨⟨e, w2, s2, out2⟩, h1, h⟩ := h
    have h3 := (retry_runinv hinv hx (resizeIfNeeded_runinv hinv hx hI hr) h1).2.2
    cases e with
    | ret => injection h with h; obtain ⟨rfl, -, rfl, rfl⟩ := h; cases hp
    | failed => injection h with h; obtain ⟨rfl, -, rfl, rfl⟩ := h; cases hp
    | got dx c =>
      refine ⟨s2, h3.1, by rw [h3.2.1]; rfl, ?_⟩
      simp only at h
      unfold afterSolve at h
      simp only at h
      split at h
      · injection h with h; obtain ⟨rfl, -, rfl, rfl⟩ := h; cases hp
      · split at h
        · injection h with h; obtain ⟨rfl, -, rfl, rfl⟩ := h; cases hp
        · split at h
          next hg =>
            rw [Res.bind_eq_ok] at h
            obtain ⟨s1, hs1, h⟩ := h
            injection h with h; obtain ⟨rfl, -, rfl, rfl⟩ := h
            split at hs1
            · exact Or.inr ⟨_, hs1⟩
            · injection hs1 with hs1; exact Or.inl hs1.symm
          next hg =>
            rw [Res.bind_eq_ok] at h
            obtain ⟨s1, hs1, h⟩ := h
            have hgf : lt (sub c.cost out2.finalCost.cost) (ofInt 0) = false := by
              rw [Bool.or_eq_true, not_or] at hg; exact Bool.not_eq_true _ ▸ hg.1
            split at h
            · injection h with h; obtain ⟨rfl, -, rfl, rfl⟩ := h; cases hp
            · split at h
              · injection h with h; obtain ⟨rfl, -, rfl, rfl⟩ := h; cases hp
              · injection h with h; obtain ⟨rfl, -, rfl, rfl⟩ := h
                have hp : lt (sub c.cost out2.finalCost.cost) (ofInt 0) = true := hp
                rw [hgf] at hp; cases hp

/-- If what is logged after good steps does not throw, logging does not change the run. -/
theorem log_same (h : RunInv E Px I Z B N A)
    (hh : ∀ x t s', B x t → (E.sol.solve t).isSome = true → (s' = t ∨ ∃ q, E.sol.goodStep t q = .ok s') → hook s' = .ok ())
    (fuel : Nat) (mi : Int) (w : W) (s : S) (x : X) (hx : Px x) (hI : I s) :
    optimizeAccLog E hook o fuel mi w s x = optimizeAcc E o fuel mi w s x := by
  have hs : ∀ w s x out, Px x → I s → stepLog E hook o fuel w s x out = step E o fuel w s x out := by
    intro w s x out hx hI
    unfold stepLog
    cases he : step E o fuel w s x out with
    | ok r =>
      rw [Res.bind_ok]
      split
      next hp =>
        obtain ⟨p, w', s', out'⟩ := r
        obtain ⟨t, h0, h1, h2⟩ := step_success h.toStepInv hx hI he hp
        rw [show hook s' = .ok () from hh x t s' h0 h1 h2]; rfl
      · rfl
    | ub => rfl
    | throw => rfl
    | fuel => rfl
  have hb : ∀ last st, Px st.x → I st.s → bodyLog E hook o fuel last st = body E o fuel last st := by
    intro last st hx hI
    unfold bodyLog body
    rw [hs _ _ _ _ hx hI]
    cases step E o fuel st.w st.s st.x st.out <;> rfl
  have hl : ∀ n st, Px st.x → I st.s → loopLog E hook o fuel n st = loop E o fuel n st := by
    intro n
    induction n with
    | zero => intro st _ _; rfl
    | succ n ih =>
      intro st hx hI
      unfold loopLog loop
      rw [hb _ _ hx hI]
      cases he : body E o fuel (n == 0) st with
      | ok st1 =>
        rw [Res.bind_ok, Res.bind_ok]
        split
        · rfl
        next hn =>
          obtain ⟨h1, h2⟩ := body_keeps h he hx hI (not_not.mp hn)
          exact ih st1 h1 h2
      | ub => rfl
      | throw => rfl
      | fuel => rfl
  unfold optimizeAccLog optimizeAcc
  cases loopBound o mi with
  | none => rfl
  | some m =>
    simp only
    rw [hl _ _ hx hI]

end

/-! ### C65 -/

section
variable {F R W X : Type} [FloatOps F]
variable {so : SolverOpts F} {L : LinAlg F} {P : Problem F R W X} {o : Options F W (DVec F)}

theorem denseInvCov_pos {H C : DMat F} (h : denseInvCov L H = some C) : 0 < C.n := by
  unfold denseInvCov at h
  split at h
  next h1 => injection h with h; subst h; show 0 < H.n; omega
  · split at h
    next h1 =>
      split at h
      · injection h with h; subst h; exact h1
      · cases h
    · cases h

theorem maxCoeff_ok {C : DMat F} (h : 0 < C.n) : ∃ v, maxCoeff C = .ok v := ⟨_, dif_pos h⟩

/-- **C65**, Levenberg-Marquardt: with the log enabled, whatever is printed, the run is the same as without log. -/
theorem C65_lm (print : Bool) (fuel : Nat) (mi : Int) (w : W) (s : LMState F R) (x : X) :
    optimizeAccLog (lmEnv so L P) (lmHook L print) o fuel mi w s x = optimizeAcc (lmEnv so L P) o fuel mi w s x := by
  have hinv : RunInv (lmEnv so L P) (fun _ => True) (fun _ => True) (fun _ => True) (fun _ _ => True) (fun _ _ => True) (fun _ _ => True) :=
    { plus := fun _ _ _ => trivial
      resize := fun _ _ _ _ _ _ _ _ _ => trivial
      build := fun _ _ _ b _ _ _ _ _ => by cases b <;> trivial
      good := fun _ _ _ _ _ _ _ => trivial
      bad := fun _ _ _ _ _ => trivial
      failedB := fun _ _ _ _ _ => trivial
      failedN := fun _ _ _ _ _ => trivial
      rebuildB := fun _ _ _ _ => trivial
      rebuildA := fun _ _ _ _ => trivial }
  refine log_same hinv (fun _ t s' _ _ _ => ?_) fuel mi w s x trivial trivial
  unfold lmHook
  split
  · unfold lmMaxStdDev
    split
    · rfl
    next C hC =>
      obtain ⟨v, hv⟩ := maxCoeff_ok (denseInvCov_pos hC)
      rw [hv]; rfl
  · rfl

/-- Whether the decomposition succeeds does not depend on the right hand side. -/
def UniformLDLT (L : LinAlg F) : Prop := ∀ n A b b', (L.ldlt n A b).isSome = (L.ldlt n A b').isSome

/-- **C65** (partial), Gauss-Newton with LDLT. Missing: `use_ldlt = false`, for which the property is violated, see `C65_gn_throws`. -/
theorem C65_gn_partial (hL : UniformLDLT L) (hl : so.useLdlt = true) (print : Bool) (fuel : Nat) (mi : Int) (w : W) (s : GNState F R)
    (hs : P.dims = none ∨ 0 < s.n) (x : X) :
    optimizeAccLog (gnEnv so L P) (gnHook L print) o fuel mi w s x = optimizeAcc (gnEnv so L P) o fuel mi w s x := by
  have hinv : RunInv (gnEnv so L P) (fun _ => True) (fun s => P.dims = none ∨ 0 < s.n) (fun s => 0 < s.n)
      (fun _ s => 0 < s.n) (fun _ s => 0 < s.n) (fun _ s => 0 < s.n) :=
    { plus := fun _ _ _ => trivial
      resize := fun w s x s' w' _ hd hI h => by
        have h : gnResize P w s (P.dynDims x) = (.done s', w') := h
        have hd : P.dims.isNone = true → P.dynDims x ≠ 0 := hd
        unfold gnResize at h
        cases hdim : P.dims with
        | some d =>
          rw [hdim] at h
          simp only at h
          split at h
          · obtain ⟨h, -⟩ := Prod.mk.inj h; injection h with h; subst h
            rcases hI with hI | hI
            · rw [hdim] at hI; cases hI
            · exact hI
          · cases (Prod.mk.inj h).1
        | none =>
          rw [hdim] at h hd
          have hd := hd rfl
          simp only at h
          split at h
          · cases (Prod.mk.inj h).1
          · split at h
            · obtain ⟨h, -⟩ := Prod.mk.inj h; injection h with h; subst h; omega
            · split at h
              · obtain ⟨h, -⟩ := Prod.mk.inj h; injection h with h; subst h
                show 0 < (P.dynDims x).toNat
                omega
              · cases (Prod.mk.inj h).1
      build := fun w s x b s' w' _ hI h => by
        have e : s'.n = s.n := buildSystem_n h
        cases b <;> (show 0 < s'.n; rw [e]; exact hI)
      good := fun _ _ _ _ h _ e => by injection e with e; subst e; exact h
      bad := fun _ _ _ h e => by injection e with e; subst e; exact h
      failedB := fun _ _ _ h e => by injection e with e; subst e; exact h
      failedN := fun _ _ _ h e => by injection e with e; subst e; exact h
      rebuildB := fun _ _ _ h => Or.inr h
      rebuildA := fun _ _ _ h => Or.inr h }
  refine log_same hinv (fun _ t s' ht hsol hs' => ?_) fuel mi w s x trivial hs
  have hs' : s' = t := by
    rcases hs' with h | ⟨q, h⟩
    · exact h
    · injection h with h; exact h.symm
  subst hs'
  have hsol : (gnSolve so L (P.dims == some 1) s').isSome = true := hsol
  unfold gnHook
  split
  · unfold gnMaxStdDev
    suffices h : ∃ C, denseInvCov L ⟨s'.n, s'.H⟩ = some C by
      obtain ⟨C, hC⟩ := h
      obtain ⟨v, hv⟩ := maxCoeff_ok (denseInvCov_pos hC)
      rw [hC]; simp only; rw [hv]; rfl
    unfold denseInvCov
    by_cases h1 : s'.n = 1
    · exact ⟨_, if_pos h1⟩
    · simp only
      rw [if_neg h1, if_pos ht]
      have hall : ∀ j : Fin s'.n, (L.ldlt s'.n (symUpper s'.H) (unitCol j)).isSome := by
        intro j
        unfold gnSolve at hsol
        rw [if_pos hl] at hsol
        split at hsol
        · rw [Option.isSome_map] at hsol
          rw [hL _ _ _ (negVec s'.g)]; exact hsol
        · cases hsol
      exact ⟨_, dif_pos hall⟩
  · rfl

end

/-- diagonal matrices over `D`: LDLT fails for a negative coefficient -/
def linDiag : LinAlg D where
  ldlt := fun n A b =>
    if (List.finRange n).any fun i => lt (A i i) (ofInt 0) then none
    else some fun i => if eq (A i i) (ofInt 0) then ofInt 0 else div (b i) (A i i)
  inv := fun _ A => fun i j => if i = j then div (ofInt 1) (A i i) else ofInt 0

theorem linDiag_uniform : UniformLDLT linDiag := by
  intro n A b b'
  unfold linDiag
  simp only
  split <;> rfl

/-- two parameters with a saddle: cost 10 + (x^2 - y^2) / 2 -/
def saddle : Problem D D Nat (D × D) where
  acc :=
    { full := fun w x _ _ _ =>
        (({ cost := add (ofInt 10) (div (sub (mul x.1 x.1) (mul x.2 x.2)) (ofInt 2)), num := 1, inlier := ofInt 1 },
          fun i => if i.1 = 0 then x.1 else neg x.2, fun i j => if i = j then (if i.1 = 0 then ofInt 1 else ofInt (-1)) else ofInt 0), w + 1)
      eval := fun w x => ({ cost := add (ofInt 10) (div (sub (mul x.1 x.1) (mul x.2 x.2)) (ofInt 2)), num := 1, inlier := ofInt 1 }, w) }
  dims := none
  dynDims := fun _ => 2
  plusEq := fun x d => if h : d.n = 2 then (add x.1 (d.v ⟨0, by omega⟩), add x.2 (d.v ⟨1, by omega⟩)) else x
  clock := fun w => (ofInt 1, w)
  alloc := fun w _ => (some (fun _ => ofInt 7, fun _ _ => ofInt 7), w)
  ratio1 := ofInt 1

/-- the run leaves by an exception -/
def Res.thrown {α : Type} : Res α → Bool
  | .throw => true
  | _ => false

theorem Res.eq_throw {α : Type} {r : Res α} (h : r.thrown = true) : r = .throw := by
  cases r <;> first | rfl | cases h

/-- **C65 is violated** by Gauss-Newton without LDLT: with an indefinite Hessian the step is found (with the inverse), but the covariance is not, and
printing the maximum standard deviation makes `Optimize` throw. Without it the run succeeds. -/
theorem C65_gn_throws :
    optimizeAccLog (gnEnv { sopts1 with useLdlt := false } linDiag saddle) (gnHook linDiag true) (opts1 3) 1000 (-1) 0 gn0 (ofInt 1, ofInt 1) = .throw ∧
    ∃ st, optimizeAccLog (gnEnv { sopts1 with useLdlt := false } linDiag saddle) (gnHook linDiag false) (opts1 3) 1000 (-1) 0 gn0 (ofInt 1, ofInt 1) = .ok st ∧
      0 ≤ st.out.stop.code := by
  refine ⟨Res.eq_throw (by decide +kernel), ?_⟩
  have h : (optimizeAccLog (gnEnv { sopts1 with useLdlt := false } linDiag saddle) (gnHook linDiag false) (opts1 3) 1000 (-1) 0 gn0 (ofInt 1, ofInt 1)).holds
      (fun st => decide (0 ≤ st.out.stop.code)) = true := by decide +kernel
  obtain ⟨st, h1, h2⟩ := Res.exists_of_holds h
  exact ⟨st, h1, of_decide_eq_true h2⟩

/-- the hypotheses of `C65_gn_partial` hold for this problem, also with LDLT: there the indefinite Hessian is a failure of the solver, with and
without log -/
example (print : Bool) : UniformLDLT linDiag ∧ saddle.dims = none ∧
    (optimizeAccLog (gnEnv sopts1 linDiag saddle) (gnHook linDiag print) { opts1 3 with maxConsecFailures := 3 } 1000 (-1) 0 gn0 (ofInt 1, ofInt 1)).holds
      (fun st => decide (st.out.stop = .kSolverFailed)) = true := by
  refine ⟨linDiag_uniform, rfl, ?_⟩
  cases print <;> decide +kernel

/-! ### C64 -/

section
variable {R : Type}

theorem foldl_max (l : List ℝ) : ∀ a : ℝ, let r := l.foldl (fun a b => if lt a b then b else a) a
    a ≤ r ∧ (∀ x ∈ l, x ≤ r) ∧ (r = a ∨ r ∈ l) := by
  induction l with
  | nil => intro a; simp
  | cons b l ih =>
    intro a
    obtain ⟨h1, h2, h3⟩ := ih (if lt a b then b else a)
    simp only [List.foldl_cons]
    have hab : a ≤ (if lt a b = true then b else a) ∧ b ≤ (if lt a b = true then b else a) := by
      split
      next h => exact ⟨le_of_lt (by simpa using h), le_refl _⟩
      next h => exact ⟨le_refl _, not_lt.mp (by simpa using h)⟩
    refine ⟨hab.1.trans h1, fun x hx => ?_, ?_⟩
    · rcases List.mem_cons.1 hx with rfl | hx
      · exact hab.2.trans h1
      · exact h2 x hx
    · rcases h3 with h3 | h3
      · rw [h3]
        split
        · exact Or.inr (List.mem_cons_self ..)
        · exact Or.inl rfl
      · exact Or.inr (List.mem_cons_of_mem _ h3)

/-- over the reals `maxCoeff` is the largest coefficient -/
theorem maxCoeff_spec {n : Nat} (C : Mat ℝ n) (hn : 0 < n) :
    ∃ v, maxCoeff (⟨n, C⟩ : DMat ℝ) = .ok v ∧ (∀ i j, C i j ≤ v) ∧ ∃ i j, v = C i j := by
  unfold maxCoeff
  simp only [hn, dif_pos]
  obtain ⟨h1, h2, h3⟩ := foldl_max ((List.finRange n).flatMap fun j => (List.finRange n).map fun i => C i j) (C ⟨0, hn⟩ ⟨0, hn⟩)
  refine ⟨_, rfl, fun i j => h2 _ ?_, ?_⟩
  · exact List.mem_flatMap.2 ⟨j, List.mem_finRange j, List.mem_map.2 ⟨i, List.mem_finRange i, rfl⟩⟩
  · rcases h3 with h3 | h3
    · exact ⟨_, _, h3⟩
    · obtain ⟨j, -, h⟩ := List.mem_flatMap.1 h3
      obtain ⟨i, -, h⟩ := List.mem_map.1 h
      exact ⟨i, j, h.symm⟩

/-- `C` is the inverse of `M` -/
def InvOf {n : Nat} (M C : Mat ℝ n) : Prop := ∀ v, mv M (mv C v) = v

theorem mv_single {n : Nat} (C : Mat ℝ n) (j : Fin n) (i : Fin n) : mv C (Pi.single j 1) i = C i j := by
  simp [mv, Pi.single_apply]

theorem dot_single {n : Nat} (v : Vec ℝ n) (i : Fin n) : dotR (Pi.single i 1) v = v i := by
  simp [dotR, Pi.single_apply]

/-- variances are positive and bound the covariances -/
theorem inv_entries {n : Nat} {M C : Mat ℝ n} (h : PD M) (hC : InvOf M C) : (∀ i, 0 < C i i) ∧ ∀ i j, C i j = C j i ∧ 2 * C i j ≤ C i i + C j j := by
  have hq : ∀ i j, C i j = dotR (mv C (Pi.single i 1)) (mv M (mv C (Pi.single j 1))) := by
    intro i j
    rw [sym_dot h.1, hC, dotR_comm, dot_single, mv_single]
  have hsym : ∀ i j, C i j = C j i := by
    intro i j
    rw [hq i j, hq j i, sym_dot h.1]
  refine ⟨fun i => ?_, fun i j => ⟨hsym i j, ?_⟩⟩
  · rw [hq]
    refine h.2 _ fun h0 => ?_
    have := hC (Pi.single i 1)
    rw [h0, mv_zero] at this
    have := congrFun this i
    simp at this
  · have h0 : 0 ≤ dotR (mv C (Pi.single i 1) - mv C (Pi.single j 1)) (mv M (mv C (Pi.single i 1) - mv C (Pi.single j 1))) := h.psd.2 _
    rw [mv_sub, dotR_sub, hC, hC, dotR_comm, dot_single, dotR_comm _ (Pi.single j 1), dot_single] at h0
    simp only [Pi.sub_apply, mv_single] at h0
    have := hsym i j
    linarith

/-- the largest coefficient of an inverse is a variance -/
theorem maxCoeff_inv {n : Nat} {M C : Mat ℝ n} (hn : 0 < n) (h : PD M) (hC : InvOf M C) :
    ∃ i, maxCoeff (⟨n, C⟩ : DMat ℝ) = .ok (C i i) ∧ ∀ j k, C j k ≤ C i i := by
  obtain ⟨v, h1, h2, i, j, rfl⟩ := maxCoeff_spec C hn
  have := ((inv_entries h hC).2 i j).2
  have h3 := h2 i i
  have h4 := h2 j j
  have e : C i j = C i i := by linarith
  exact ⟨i, by rw [h1, e], fun a b => e ▸ h2 a b⟩

/-- `sigma` is the square root of the largest variance of the symmetric matrix with the upper triangle of `H` -/
def MaxSigma {n : Nat} (H : Mat ℝ n) (sigma : ℝ) : Prop :=
  0 < sigma ∧ ∃ C, InvOf (symUpper H) C ∧ (∃ i, sigma ^ 2 = C i i) ∧ ∀ i j, C i j ≤ sigma ^ 2

theorem maxSigma_of {L : LinAlg ℝ} (hL : ExactLinAlg L) {n : Nat} (H : Mat ℝ n) (hn : 0 < n) (hpd : PD (symUpper H)) :
    ∃ C, denseInvCov L ⟨n, H⟩ = some C ∧ ∃ sigma, (maxCoeff C).map sqrt = .ok sigma ∧ MaxSigma H sigma := by
  obtain ⟨C, h1, h2⟩ := denseInvCov_pd L hL n H hn hpd
  obtain ⟨i, h3, h4⟩ := maxCoeff_inv hn hpd h2
  have hp := (inv_entries hpd h2).1 i
  refine ⟨_, h1, Real.sqrt (C i i), by rw [h3]; rfl, Real.sqrt_pos.2 hp, C, h2, ⟨i, Real.sq_sqrt hp.le⟩, fun j k => ?_⟩
  rw [Real.sq_sqrt hp.le]; exact h4 j k

/-- **C64** (partial), Gauss-Newton: on a positive definite Hessian `MaxStdDev` is the square root of the largest variance. Missing: other
Hessians, for which it throws or Levenberg-Marquardt returns 0, see `C64_no_covariance`. -/
theorem C64_gn_partial {L : LinAlg ℝ} (hL : ExactLinAlg L) (s : GNState ℝ R) (hn : 0 < s.n) (hpd : PD (symUpper s.H)) :
    ∃ sigma, gnMaxStdDev L s = .ok sigma ∧ MaxSigma s.H sigma := by
  obtain ⟨C, h1, sigma, h2, h3⟩ := maxSigma_of hL s.H hn hpd
  refine ⟨sigma, ?_, h3⟩
  unfold gnMaxStdDev
  rw [h1]
  exact h2

/-- a larger matrix has smaller variances -/
theorem inv_mono {n : Nat} {M M' C C' : Mat ℝ n} (h : PD M) (h' : PD M') (hle : ∀ v, dotR v (mv M' v) ≤ dotR v (mv M v)) (hC : InvOf M C)
    (hC' : InvOf M' C') (i : Fin n) : C i i ≤ C' i i := by
  have h0 : 0 ≤ dotR (mv C' (Pi.single i 1) - mv C (Pi.single i 1)) (mv M' (mv C' (Pi.single i 1) - mv C (Pi.single i 1))) := h'.psd.2 _
  have h1 := hle (mv C (Pi.single i 1))
  rw [hC, dotR_comm _ (Pi.single i 1), dot_single, mv_single] at h1
  have h2 : dotR (mv C' (Pi.single i 1)) (mv M' (mv C (Pi.single i 1))) = C i i := by
    rw [sym_dot h'.1, hC', dotR_comm, dot_single, mv_single]
  rw [mv_sub, dotR_sub, hC', dotR_comm, dot_single] at h0
  have h3 : dotR (mv C' (Pi.single i 1) - mv C (Pi.single i 1)) (mv M' (mv C (Pi.single i 1))) =
      dotR (mv C' (Pi.single i 1)) (mv M' (mv C (Pi.single i 1))) - dotR (mv C (Pi.single i 1)) (mv M' (mv C (Pi.single i 1))) := by
    rw [dotR_comm, dotR_sub, dotR_comm, dotR_comm _ (mv C (Pi.single i 1))]
  rw [h3, h2] at h0
  simp only [Pi.sub_apply, mv_single] at h0
  linarith

/-- the inverse is unique -/
theorem invOf_unique {n : Nat} {M C C' : Mat ℝ n} (h : PD M) (hC : InvOf M C) (hC' : InvOf M C') : C = C' := by
  funext i j
  have := congrFun (pd_inj h ((hC (Pi.single j 1)).trans (hC' (Pi.single j 1)).symm)) i
  rwa [mv_single, mv_single] at this

/-- **C64** (partial), Levenberg-Marquardt, from the damped and the un-damped Hessian: `MaxStdDev(false)` is the square root of the largest variance
of `Hessian()`, and `MaxStdDev()` from the damped Hessian is never larger. -/
theorem C64_lm_partial {L : LinAlg ℝ} (hL : ExactLinAlg L) (s : LMState ℝ R) (hn : 0 < s.gn.n) (hsym : SymR s.gn.H) (H : Mat ℝ s.gn.n)
    (hH : lmHessian s = ⟨s.gn.n, H⟩) (hpd : PD H) :
    ∃ damped sigma, lmMaxStdDev L true s = .ok damped ∧ lmMaxStdDev L false s = .ok sigma ∧ MaxSigma s.gn.H damped ∧ MaxSigma H sigma ∧
      damped ≤ sigma := by
  have hd : ∃ l, 0 ≤ l ∧ s.gn.H = dampedR l H := by
    unfold lmHessian at hH
    split at hH
    next h =>
      have h : (0 : ℝ) < s.prev := by simpa using h
      have hH := eq_of_heq (DMat.mk.inj hH).2
      refine ⟨s.prev, h.le, ?_⟩
      funext i j
      rw [← hH]
      unfold dampedR
      by_cases hij : i = j
      · subst hij
        simp
        field_simp
      · simp [hij]
    · have hH := eq_of_heq (DMat.mk.inj hH).2
      exact ⟨0, le_refl _, by rw [damped_zero, ← hH]⟩
  obtain ⟨l, hl, hd⟩ := hd
  have hpd2 : PD s.gn.H := by rw [hd]; exact damped_pd' hpd hl
  obtain ⟨C1, a1, d, a2, a3⟩ := maxSigma_of hL s.gn.H hn (by rw [symUpper_of_sym hsym]; exact hpd2)
  obtain ⟨C2, b1, g, b2, b3⟩ := maxSigma_of hL H hn (by rw [symUpper_of_sym hpd.1]; exact hpd)
  refine ⟨d, g, ?_, ?_, a3, b3, ?_⟩
  · unfold lmMaxStdDev; simp only [if_true]; rw [a1]; exact a2
  · unfold lmMaxStdDev; simp only [Bool.false_eq_true, if_false]; rw [hH, b1]; exact b2
  · obtain ⟨hd0, C, hC, ⟨i, hi⟩, -⟩ := a3
    obtain ⟨hg0, C', hC', -, hmax⟩ := b3
    rw [symUpper_of_sym hsym] at hC
    rw [symUpper_of_sym hpd.1] at hC'
    have hm := inv_mono hpd2 hpd (fun v => by rw [hd, damped_quad]; have := diagSq_nonneg (fun i => (pd_diag hpd i).le) v; nlinarith) hC hC' i
    have := hmax i i
    by_contra hlt
    rw [not_le] at hlt
    nlinarith

/-- **C64 is violated** when there is no covariance (here: a saddle): Gauss-Newton throws, Levenberg-Marquardt reports the standard deviation 0, which
is that of perfectly known parameters. -/
theorem C64_no_covariance :
    denseInvCov linDiag (⟨2, fun i j => if i = j then (if i.1 = 0 then ofInt 1 else ofInt (-1)) else ofInt 0⟩ : DMat D) = none ∧
    gnMaxStdDev linDiag (⟨2, fun _ => ofInt 0, fun i j => if i = j then (if i.1 = 0 then ofInt 1 else ofInt (-1)) else ofInt 0,
      { cost := ofInt 1, num := 1, inlier := ofInt 1 }⟩ : GNState D D) = .throw ∧
    lmMaxStdDev linDiag true (⟨⟨2, fun _ => ofInt 0, fun i j => if i = j then (if i.1 = 0 then ofInt 1 else ofInt (-1)) else ofInt 0,
      { cost := ofInt 1, num := 1, inlier := ofInt 1 }⟩, ofInt 0, ofInt 0, ofInt 2, true⟩ : LMState D D) = .ok (ofInt 0) := by
  have h : denseInvCov linDiag (⟨2, fun i j => if i = j then (if i.1 = 0 then ofInt 1 else ofInt (-1)) else ofInt 0⟩ : DMat D) = none :=
    Option.isNone_iff_eq_none.1 (by decide +kernel)
  refine ⟨h, ?_, ?_⟩
  · unfold gnMaxStdDev; rw [h]
  · unfold lmMaxStdDev; simp only [if_true]; rw [h]

end

/-- the Hessian of two parameters with correlation: hypotheses of C64 -/
example : PD (symUpper (fun i j : Fin 2 => if i = j then (2 : ℝ) else 1)) ∧ ExactLinAlg someLinAlg := by
  refine ⟨?_, someLinAlg_exact⟩
  rw [symUpper_of_sym (fun i j => by fin_cases i <;> fin_cases j <;> rfl)]
  refine ⟨fun i j => by fin_cases i <;> fin_cases j <;> rfl, fun v hv => ?_⟩
  have e : dotR v (mv (fun i j : Fin 2 => if i = j then (2 : ℝ) else 1) v) = v 0 ^ 2 + v 1 ^ 2 + (v 0 + v 1) ^ 2 := by
    simp [dotR, mv, Fin.sum_univ_two]; ring
  rw [e]
  by_contra hle
  refine hv (funext fun i => ?_)
  have h0 : v 0 = 0 := by nlinarith [sq_nonneg (v 0), sq_nonneg (v 1), sq_nonneg (v 0 + v 1)]
  have h1 : v 1 = 0 := by nlinarith [sq_nonneg (v 0), sq_nonneg (v 1), sq_nonneg (v 0 + v 1)]
  fin_cases i
  · exact h0
  · exact h1

end Verif
