import Verif.Props.Converged
import Verif.Props.Lie
import Verif.Lemmas.Reuse
import Verif.Examples.Solver1
/-!
# C90: what happens after a rejected step

The step of Gauss-Newton and of gradient descent is a function of the parameters only (gn.h:116-171, gd.h:107-134): neither has a damping or a step
length that could change after a rejected step, `BadStep` is the no-op of base.h:54. `Optimizer_::Step` rolls the step back (optimizer.h:283-288),
takes it again (optimizer.h:289-293) and rejects it again.
-/

set_option linter.unusedSectionVars false

namespace Verif
open FloatOps

section
variable {F R W S X V M : Type} [FloatOps F]

/-- The records of a run in which no step can follow a rejected one: first `T`, accepted iterations (the first one has nothing to compare with), the last of
them `p`; then `U`, rejected iterations, alternately one step from `p` and at `p`. -/
structure Wasted (E : Env F R W S X V M) (st : LoopSt F R W S X V M) (T U : List (Rec F R X V M)) (p : Rec F R X V M) : Prop where
  trace : st.trace = T ++ U
  last : T.getLast? = some p
  good : ∀ t ∈ T.tail, t.succ = true
  bad : ∀ (k : Nat) (u : Rec F R X V M), U[k]? = some u → u.succ = false ∧
    ∃ d, p.dx = some d ∧ u.x = if k % 2 = 0 then E.plusEq p.x d else p.x
  final : U ≠ [] → st.out.finalCost = p.out.finalCost
  x : U ≠ [] → ∃ d, p.dx = some d ∧ (st.x = p.x ∨ U.length % 2 = 0 ∧ st.x = E.plusEq p.x d)

/-- between two iterations: additionally where the optimizer is -/
structure Going (E : Env F R W S X V M) (C : X → F) (D : X → Option V) (st : LoopSt F R W S X V M) (T U : List (Rec F R X V M)) (p : Rec F R X V M)
    (d : V) : Prop extends Wasted E st T U p where
  dx : p.dx = some d
  step : D p.x = some d
  best : st.out.finalCost = p.out.finalCost
  cost : p.out.finalCost.cost = C p.x
  rej : U ≠ [] → lt (sub (C (E.plusEq p.x d)) (C p.x)) (ofInt 0) = false
  pos : if U.length % 2 = 0 then st.x = E.plusEq p.x d ∧ st.lastDx = some d else st.x = p.x ∧ st.lastDx = none

variable {E : Env F R W S X V M} {o : Options F W V} {Px : X → Prop} {I Z : S → Prop} {B N A : X → S → Prop} {C : X → F} {D : X → Option V}

/-- an iteration of a solver whose cost and step are functions of the parameters -/
theorem step_memoryless (h : StepInv E Px I Z B N A) (hB : ∀ x s, B x s → (E.sol.cost s).cost = C x ∧ E.sol.solve s = D x)
    {fuel : Nat} {w : W} {s : S} {x : X} {out : Output F R M} {succ mdx w' s' out'} (hx : Px x) (hI : I s)
    (hh : step E o fuel w s x out = .ok ((succ, mdx), w', s', out')) :
    (succ = false ∧ mdx = none ∧ out'.stop ≠ .kNone ∧ out'.finalCost = out.finalCost) ∨
    ∃ d, D x = some d ∧ (mdx = some d ∨ mdx = none ∧ out'.stop ≠ .kNone) ∧ succ = lt (sub (C x) out.finalCost.cost) (ofInt 0) ∧
      (if succ = true ∨ out.numIters = 0 then out'.finalCost.cost = C x else out'.finalCost = out.finalCost) ∧
      (if out.numIters > 0 then A x s' else B x s') := by
  rcases step_runinv h hx hI hh with ⟨hp, hc, -⟩ | ⟨t, d, ht, hsol, hp, he, -, hg, hA⟩
  · obtain ⟨rfl, rfl⟩ := Prod.mk.inj hp
    have hn : out'.stop ≠ .kNone := fun e => by rw [e] at hc; exact absurd hc (by decide)
    rcases (step_spec hh).push with h1 | ⟨c, dx, g, h1⟩
    · exact Or.inl ⟨rfl, rfl, hn, h1.2.2.2.2.2⟩
    · refine Or.inl ⟨rfl, rfl, hn, ?_⟩
      obtain ⟨-, -, -, -, -, -, h1, -, h2, h3⟩ := h1
      rcases h3 with h3 | h3
      · cases h3
      · rw [h1, if_neg]; rintro (h4 | h4)
        · rw [h3.2.1] at h4; cases h4
        · exact h3.2.2.1 h4
  · obtain ⟨hc, hd⟩ := hB _ _ ht
    rw [hsol] at hd
    refine Or.inr ⟨d, hd.symm, hp, by rw [← hc]; exact hg, ?_, ?_⟩
    · rcases (step_spec hh).push with h1 | ⟨c, dx, g, h1⟩
      · have := h1.2.2.1.symm.trans he
        simp at this
      · obtain ⟨h1, -, -, -, -, -, h2, -, h3, -⟩ := h1
        have h4 := h1.symm.trans he
        rw [List.append_cancel_left_eq] at h4
        have h5 : c.cost = C x := by rw [← hc]; simpa using h4
        simp only at h3
        rw [h2, h3]
        split
        · exact h5
        · rfl
    · split
      next h0 => rw [if_pos h0] at hA; exact hA
      next h0 => rw [if_neg h0] at hA; rw [hA]; exact ht

/-- **C90**: for a solver whose cost and step are functions of the parameters, once a step was rejected all later ones are. -/
theorem run_memoryless (h : RunInv E Px I Z B N A) (hB : ∀ x s, B x s → (E.sol.cost s).cost = C x ∧ E.sol.solve s = D x)
    (hundo : ∀ x d, E.plusEq (E.plusEq x d) (E.negV d) = x) (hlt : ∀ a : F, lt (sub a a) (ofInt 0) = false)
    {fuel : Nat} {mi : Int} (hmi : budget o mi ≤ 65536) {w : W} {s : S} {x : X} {st : LoopSt F R W S X V M} (hx : Px x) (hI : I s)
    (hr : optimizeAcc E o fuel mi w s x = .ok st) : ∃ T U p, Wasted E st T U p := by
  obtain ⟨m, st0, hm, hj, -, hlen, hst⟩ := run_inv
    (I := fun st => Px st.x ∧ I st.s ∧ st.out.numIters = st.trace.length % 65536 ∧
      (st.trace.length ≤ 65536 → (st.trace = [] ∧ st.lastDx = none) ∨ ∃ T U p d, Going E C D st T U p d))
    (J := fun st => st.trace.length ≤ 65536 → st.trace = [] ∨ ∃ T U p, Wasted E st T U p)
    (fun last st st' hno h1 hb => by
      obtain ⟨hPx, hIs, hni, hgo⟩ := h1
      obtain ⟨succ, mdx, w1, s1, out1, ms, hstep, hs⟩ := body_spec' hb
      have hmem := step_memoryless h.toStepInv hB hPx hIs hstep
      have hni' := numIters_inv hb hni
      have hrun : st'.out.stop = .kNone → out1.stop = .kNone := fun hn => timeStop_none (by rw [hs.out] at hn; exact hn)
      have hPx' : Px st'.x := by
        have := hs.upd
        revert this
        generalize st'.x = x1
        generalize st'.lastDx = l1
        generalize st'.lastSucc = b1
        intro this
        cases this with
        | succ dx => exact h.plus _ _ hPx
        | roll d _ _ => exact h.plus _ _ hPx
        | adv dx _ => exact h.plus _ _ hPx
        | stay _ => exact hPx
      have hI' : st'.out.stop = .kNone → I st'.s := fun hn => by
        obtain ⟨b, hb⟩ := hs.solver
        rw [hb]
        rcases hmem with ⟨-, -, h2, -⟩ | ⟨d, -, -, -, -, hA⟩
        · exact absurd (hrun hn) h2
        · split at hA
          · exact h.rebuildA _ _ _ hA
          · exact h.rebuildB _ _ _ hA
      have hfc : st'.out.finalCost = out1.finalCost := by rw [hs.out]
      have key : st'.trace.length ≤ 65536 → (∃ T U p, Wasted E st' T U p) ∧ (st'.out.stop = .kNone → ∃ T U p d, Going E C D st' T U p d) := by
        intro hl
        have hl1 : st'.trace.length = st.trace.length + 1 := by rw [hs.trace]; simp
        have hupd := hs.upd
        have htr := hs.trace
        rcases hgo (by omega) with ⟨h0, hld⟩ | ⟨T, U, p, d, hg⟩
        · -- the first iteration
          have hW : Wasted E st' [⟨st.x, succ, mdx, out1, st'.x⟩] [] ⟨st.x, succ, mdx, out1, st'.x⟩ :=
            ⟨by rw [htr, h0]; rfl, rfl, by simp, by simp, by simp, by simp⟩
          refine ⟨⟨_, _, _, hW⟩, fun hn => ?_⟩
          have hn0 : st.out.numIters = 0 := by rw [hni, h0]; rfl
          rcases hmem with ⟨-, -, h2, -⟩ | ⟨d, hd, hm, hsu, hc, -⟩
          · exact absurd (hrun hn) h2
          · rcases hm with rfl | ⟨-, h2⟩
            · rw [if_pos (Or.inr hn0)] at hc
              refine ⟨_, _, _, d, { toWasted := hW, dx := rfl, step := hd, best := hfc, cost := hc, rej := by simp, pos := ?_ }⟩
              rw [if_pos (by rfl)]
              revert hupd
              generalize st'.x = x1
              generalize st'.lastDx = l1
              generalize st'.lastSucc = b1
              intro hupd
              cases hupd with
              | succ dx => exact ⟨rfl, rfl⟩
              | roll d' _ h3 => rw [hld] at h3; cases h3
              | adv dx _ => exact ⟨rfl, rfl⟩
            · exact absurd (hrun hn) h2
        · have hne : T ≠ [] := by
            rintro rfl; have := hg.last; simp at this
          have hn0 : st.out.numIters ≠ 0 := by
            have : 0 < T.length := List.length_pos_iff.mpr hne
            have h2 : st.trace.length = T.length + U.length := by rw [hg.trace]; simp
            rw [hni]; omega
          cases succ with
          | true =>
            -- an accepted step: none was rejected before
            rcases hmem with ⟨h2, -⟩ | ⟨d', hd', hm, hsu, hc, -⟩
            · cases h2
            · rw [hg.best, hg.cost] at hsu
              have hpos := hg.pos
              have hU : U = [] := by
                by_contra hU
                split at hpos
                · rw [hpos.1, hg.rej hU] at hsu; cases hsu
                · rw [hpos.1, hlt] at hsu; cases hsu
              subst hU
              rw [if_pos (Or.inl rfl)] at hc
              have hW : Wasted E st' (T ++ [⟨st.x, true, mdx, out1, st'.x⟩]) [] ⟨st.x, true, mdx, out1, st'.x⟩ := by
                refine ⟨by rw [htr, hg.trace]; simp, by simp, ?_, by simp, by simp, by simp⟩
                intro t ht
                rw [List.tail_append_of_ne_nil hne, List.mem_append] at ht
                rcases ht with ht | ht
                · exact hg.good t ht
                · rw [List.mem_singleton] at ht; subst ht; rfl
              refine ⟨⟨_, _, _, hW⟩, fun hn => ?_⟩
              rcases hm with rfl | ⟨-, h2⟩
              · refine ⟨_, _, _, d', { toWasted := hW, dx := rfl, step := hd', best := hfc, cost := hc, rej := by simp, pos := ?_ }⟩
                rw [if_pos (by rfl)]
                revert hupd
                generalize st'.x = x1
                generalize st'.lastDx = l1
                generalize st'.lastSucc = b1
                intro hupd
                cases hupd with
                | succ dx => exact ⟨rfl, rfl⟩
              · exact absurd (hrun hn) h2
          | false =>
            have hfin : out1.finalCost = p.out.finalCost := by
              rcases hmem with ⟨-, -, -, h2⟩ | ⟨d', -, -, -, hc, -⟩
              · rw [h2, hg.best]
              · rw [if_neg (by simp [hn0])] at hc; rw [hc, hg.best]
            have hupos : st'.x = p.x ∧ U.length % 2 = 0 ∧ st'.lastDx = none ∨
                U.length % 2 = 1 ∧ (st'.x = p.x ∧ mdx = none ∨ mdx ≠ none ∧ st'.x = E.plusEq p.x d ∧ st'.lastDx = some d) := by
              have hpos := hg.pos
              revert hupd
              generalize st'.x = x1
              generalize st'.lastDx = l1
              generalize st'.lastSucc = b1
              intro hupd
              cases hupd with
              | roll d' _ h3 =>
                split at hpos
                next he =>
                  rw [hpos.2] at h3
                  obtain rfl := Option.some.inj h3
                  rw [hpos.1, hundo]
                  exact Or.inl ⟨rfl, he, rfl⟩
                next he => rw [hpos.2] at h3; cases h3
              | adv dx h3 =>
                split at hpos
                next he => rw [hpos.2] at h3; cases h3
                next he =>
                  rcases hmem with ⟨-, h2, -⟩ | ⟨d', hd', hm, -⟩
                  · cases h2
                  · rw [hpos.1, hg.step] at hd'
                    obtain rfl := Option.some.inj hd'
                    rcases hm with hm | ⟨hm, -⟩
                    · obtain rfl := Option.some.inj hm
                      exact Or.inr ⟨by omega, Or.inr ⟨by simp, by rw [hpos.1], rfl⟩⟩
                    · cases hm
              | stay h3 =>
                split at hpos
                next he => rw [hpos.2] at h3; cases h3
                next he => exact Or.inr ⟨by omega, Or.inl ⟨hpos.1, rfl⟩⟩
            have hW : Wasted E st' T (U ++ [⟨st.x, false, mdx, out1, st'.x⟩]) p := by
              refine ⟨by rw [htr, hg.trace]; simp, hg.last, hg.good, ?_, fun _ => by rw [hfc, hfin], fun _ => ⟨d, hg.dx, ?_⟩⟩
              · intro k u hk
                rw [List.getElem?_append] at hk
                split at hk
                · exact hg.bad k u hk
                next hkl =>
                  have hk0 : k - U.length = 0 := by
                    by_contra h0
                    obtain ⟨j, hj⟩ := Nat.exists_eq_succ_of_ne_zero h0
                    rw [hj] at hk; simp at hk
                  rw [hk0] at hk
                  simp only [List.getElem?_cons_zero, Option.some.injEq] at hk
                  subst hk
                  have : k = U.length := by omega
                  subst this
                  refine ⟨rfl, d, hg.dx, ?_⟩
                  have hpos := hg.pos
                  split at hpos
                  next he => rw [if_pos he]; exact hpos.1
                  next he => rw [if_neg he]; exact hpos.1
              · simp only [List.length_append, List.length_cons, List.length_nil]
                rcases hupos with h3 | ⟨h3, h4 | h4⟩
                · exact Or.inl h3.1
                · exact Or.inl h4.1
                · exact Or.inr ⟨by omega, h4.2.1⟩
            refine ⟨⟨_, _, _, hW⟩, fun hn => ?_⟩
            rcases hmem with ⟨-, -, h2, -⟩ | ⟨d', hd', hm, hsu, -, -⟩
            · exact absurd (hrun hn) h2
            · have hmn : mdx ≠ none := by
                rcases hm with hm | ⟨-, h2⟩
                · rw [hm]; simp
                · exact absurd (hrun hn) h2
              refine ⟨_, _, _, d, { toWasted := hW, dx := hg.dx, step := hg.step, best := by rw [hfc, hfin], cost := hg.cost, rej := ?_, pos := ?_ }⟩
              · intro _
                by_cases hU : U = []
                · subst hU
                  have hpos := hg.pos
                  rw [if_pos (by rfl)] at hpos
                  rw [hg.best, hg.cost, hpos.1] at hsu
                  exact hsu.symm
                · exact hg.rej hU
              · simp only [List.length_append, List.length_cons, List.length_nil]
                rcases hupos with h3 | ⟨h3, h4 | h4⟩
                · rw [if_neg (by omega)]; exact ⟨h3.1, h3.2.2⟩
                · exact absurd h4.2 hmn
                · rw [if_pos (by omega)]; exact h4.2
      exact ⟨fun hn => ⟨hPx', hI' hn, hni', fun hl => Or.inr ((key hl).2 hn)⟩, fun hl => Or.inr (key hl).1⟩)
    (show _ from ⟨hx, hI, rfl, fun _ => Or.inl ⟨rfl, rfl⟩⟩) (show _ from fun _ => Or.inl rfl) hr
  obtain ⟨hb, -, -⟩ := loopBound_spec hm
  rcases hj (by unfold budget at hmi; omega) with h0 | ⟨T, U, p, hW⟩
  · rw [h0] at hlen; simp at hlen
  · rw [hst]
    exact ⟨T, U, p, ⟨hW.trace, hW.last, hW.good, hW.bad, hW.final, hW.x⟩⟩

end

/-! ### Gauss-Newton and gradient descent -/

section
variable {F R W X : Type} [FloatOps F] {so : SolverOpts F} {L : LinAlg F} {P : Problem F R W X} {n : Nat}

/-- what the user function returns depends on the parameters only -/
def Deterministic (P : Problem F R W X) (n : Nat) : Prop :=
  ∀ w w' x, (P.acc.full w x n (fun _ => ofInt 0) (fun _ _ => ofInt 0)).1 = (P.acc.full w' x n (fun _ => ofInt 0) (fun _ _ => ofInt 0)).1

theorem gnAccumulate_det (h : Deterministic P n) (w w' : W) {s s' : GNState F R} (hs : s.n = n) (hs' : s'.n = n) (x : X) :
    (gnAccumulate so P w s x).1 = (gnAccumulate so P w' s' x).1 := by
  obtain ⟨m, g, H, c⟩ := s
  obtain ⟨m', g', H', c'⟩ := s'
  simp only at hs hs'
  subst hs hs'
  have := h w w' x
  unfold gnAccumulate
  rcases e : P.acc.full w x m' (fun _ => ofInt 0) (fun _ _ => ofInt 0) with ⟨⟨c1, g1, H1⟩, w1⟩
  rcases e' : P.acc.full w' x m' (fun _ => ofInt 0) (fun _ _ => ofInt 0) with ⟨⟨c2, g2, H2⟩, w2⟩
  rw [e, e'] at this
  simp only [Prod.mk.injEq] at this
  obtain ⟨rfl, rfl, rfl⟩ := this
  rfl

theorem buildSystem_det (h : Deterministic P n) (w w' : W) {s s' : GNState F R} (hs : s.n = n) (hs' : s'.n = n) (x : X) :
    (buildSystem so P w s x).2.1 = (buildSystem so P w' s' x).2.1 ∧ (buildSystem so P w s x).2.1.n = n := by
  have := gnAccumulate_det (so := so) h w w' hs hs' x
  have hn : (gnAccumulate so P w s x).1.n = n := hs
  unfold buildSystem
  rcases e : gnAccumulate so P w s x with ⟨s1, w1⟩
  rcases e' : gnAccumulate so P w' s' x with ⟨s2, w2⟩
  rw [e, e'] at this
  rw [e] at hn
  simp only at this hn
  subst this
  refine ⟨?_, ?_⟩ <;> (simp only; split <;> [split; skip] <;> first | rfl | exact hn | (split <;> exact hn))

theorem gdBuild_det (h : Deterministic P n) (w w' : W) {s s' : GNState F R} (hs : s.n = n) (hs' : s'.n = n) (x : X) :
    (gdBuild so P w s x).2.1 = (gdBuild so P w' s' x).2.1 ∧ (gdBuild so P w s x).2.1.n = n := by
  have := gnAccumulate_det (so := so) h w w' hs hs' x
  have hn : (gnAccumulate so P w s x).1.n = n := hs
  unfold gdBuild
  rcases e : gnAccumulate so P w s x with ⟨s1, w1⟩
  rcases e' : gnAccumulate so P w' s' x with ⟨s2, w2⟩
  rw [e, e'] at this
  rw [e] at hn
  simp only at this hn
  subst this
  exact ⟨rfl, hn⟩

theorem gnResize_n {w : W} {s s' : GNState F R} {w'} (hs : SizeOk P s) (h : gnResize P w s n = (.done s', w')) : s'.n = n ∧ SizeOk P s' := by
  unfold gnResize at h
  cases hd : P.dims with
  | some d =>
    rw [hd] at h
    simp only at h
    split at h
    next he =>
      obtain ⟨h, -⟩ := Prod.mk.inj h; injection h with h; subst h
      exact ⟨by rw [hs d hd]; exact_mod_cast he.symm, hs⟩
    · cases (Prod.mk.inj h).1
  | none =>
    rw [hd] at h
    simp only at h
    refine ⟨?_, fun d h1 => by rw [hd] at h1; cases h1⟩
    split at h
    · cases (Prod.mk.inj h).1
    · split at h
      next he => obtain ⟨h, -⟩ := Prod.mk.inj h; injection h with h; subst h; exact_mod_cast he
      · split at h
        · obtain ⟨h, -⟩ := Prod.mk.inj h; injection h with h; subst h; simp
        · cases (Prod.mk.inj h).1

/-- a solver object of size `n` -/
def sizedState (P : Problem F R W X) (n : Nat) : GNState F R := ⟨n, fun _ => ofInt 0, fun _ _ => ofInt 0, { cost := ofInt 0, num := 0, inlier := P.ratio1 }⟩

/-- the invariants of a run of Gauss-Newton on such a function -/
theorem gn_memoryless (hd : Deterministic P n) (hk : KeepsDims P) (w0 : W) :
    RunInv (gnEnv so L P) (fun x => P.dynDims x = n) (SizeOk P) (fun s => s.n = n ∧ SizeOk P s)
      (fun x s => s = (buildSystem so P w0 (sizedState P n) x).2.1 ∧ s.n = n ∧ SizeOk P s) (fun _ s => s.n = n ∧ SizeOk P s)
      (fun _ s => SizeOk P s) where
  resize := fun w s x s' w' hx _ hs h => gnResize_n hs (by rw [← hx]; exact h)
  build := fun w s x b s' w' hx hs h => by
    have h1 := buildSystem_det (so := so) hd w w0 hs.1 (rfl : (sizedState P n).n = n) x
    have h2 : buildSystem so P w s x = (b, s', w') := h
    rw [h2] at h1
    have h3 : SizeOk P s' := fun d hd => h1.2.trans (hs.1.symm.trans (hs.2 d hd))
    split
    · exact ⟨h1.1, h1.2, h3⟩
    · exact ⟨h1.2, h3⟩
  good := fun x s q s' h _ e => by injection e with e; subst e; exact h.2.2
  bad := fun x s s' h e => by injection e with e; subst e; exact h.2.2
  failedB := fun x s s' h e => by injection e with e; subst e; exact h.2
  failedN := fun x s s' h e => by injection e with e; subst e; exact h
  plus := fun x v h => (hk x v).trans h
  rebuildB := fun x s b h => h.2.2
  rebuildA := fun x s b h => h

/-- the invariants of a run of gradient descent on such a function -/
theorem gd_memoryless (hd : Deterministic P n) (hk : KeepsDims P) (w0 : W) :
    RunInv (gdEnv so P) (fun x => P.dynDims x = n) (SizeOk P) (fun s => s.n = n ∧ SizeOk P s)
      (fun x s => s = (gdBuild so P w0 (sizedState P n) x).2.1 ∧ s.n = n ∧ SizeOk P s) (fun _ s => s.n = n ∧ SizeOk P s)
      (fun _ s => SizeOk P s) where
  resize := fun w s x s' w' hx _ hs h => gnResize_n hs (by rw [← hx]; exact h)
  build := fun w s x b s' w' hx hs h => by
    have h1 := gdBuild_det (so := so) hd w w0 hs.1 (rfl : (sizedState P n).n = n) x
    have h2 : gdBuild so P w s x = (b, s', w') := h
    rw [h2] at h1
    have h3 : SizeOk P s' := fun d hd => h1.2.trans (hs.1.symm.trans (hs.2 d hd))
    split
    · exact ⟨h1.1, h1.2, h3⟩
    · exact ⟨h1.2, h3⟩
  good := fun x s q s' h _ e => by injection e with e; subst e; exact h.2.2
  bad := fun x s s' h e => by injection e with e; subst e; exact h.2.2
  failedB := fun x s s' h e => by injection e with e; subst e; exact h.2
  failedN := fun x s s' h e => by injection e with e; subst e; exact h
  plus := fun x v h => (hk x v).trans h
  rebuildB := fun x s b h => h.2.2
  rebuildA := fun x s b h => h

variable {o : Options F W (DVec F)}

/-- **C90 (violated by Gauss-Newton)**: a user function whose result depends on the parameters only, parameters on which a step can be undone: a run of
Gauss-Newton is a run of accepted steps followed, as soon as one step is rejected, only by rejected steps, alternately at the point reached by the
rejected step and at the point before it. -/
theorem C90_gn_stuck (hd : Deterministic P n) (hk : KeepsDims P) (hlt : ∀ a : F, lt (sub a a) (ofInt 0) = false)
    (hundo : ∀ x (d : DVec F), P.plusEq (P.plusEq x d) ⟨d.n, negVec d.v⟩ = x)
    {fuel : Nat} {mi : Int} (hmi : budget o mi ≤ 65536) {w : W} {s : GNState F R} {x : X} {st : LoopSt F R W (GNState F R) X (DVec F) (DMat F)}
    (hx : P.dynDims x = n) (hs : SizeOk P s) (hr : optimizeAcc (gnEnv so L P) o fuel mi w s x = .ok st) :
    ∃ T U p, Wasted (gnEnv so L P) st T U p :=
  run_memoryless (gn_memoryless hd hk w) (C := fun x => (buildSystem so P w (sizedState P n) x).2.1.cost.cost)
    (D := fun x => gnSolve so L (P.dims == some 1) (buildSystem so P w (sizedState P n) x).2.1)
    (fun x s h => by rw [h.1]; exact ⟨rfl, rfl⟩) hundo hlt hmi hx hs hr

/-- **C90 (violated by gradient descent)** -/
theorem C90_gd_stuck (hd : Deterministic P n) (hk : KeepsDims P) (hlt : ∀ a : F, lt (sub a a) (ofInt 0) = false)
    (hundo : ∀ x (d : DVec F), P.plusEq (P.plusEq x d) ⟨d.n, negVec d.v⟩ = x)
    {fuel : Nat} {mi : Int} (hmi : budget o mi ≤ 65536) {w : W} {s : GNState F R} {x : X} {st : LoopSt F R W (GNState F R) X (DVec F) (DMat F)}
    (hx : P.dynDims x = n) (hs : SizeOk P s) (hr : optimizeAcc (gdEnv so P) o fuel mi w s x = .ok st) :
    ∃ T U p, Wasted (gdEnv so P) st T U p :=
  run_memoryless (gd_memoryless hd hk w) (C := fun x => (gdBuild so P w (sizedState P n) x).2.1.cost.cost)
    (D := fun x => gdSolve so (gdBuild so P w (sizedState P n) x).2.1)
    (fun x s h => by rw [h.1]; exact ⟨rfl, rfl⟩) hundo hlt hmi hx hs hr

end
/-! ### Real parameters: vectors, rotations, poses -/

section
variable {R W X : Type} {so : SolverOpts ℝ} {L : LinAlg ℝ} {P : Problem ℝ R W X} {n : Nat} {o : Options ℝ W (DVec ℝ)}

/-- **C90 (violated by Gauss-Newton)**, for vectors, rotations and poses in exact arithmetic -/
theorem C90_gn_stuck_real (hd : Deterministic P n) (hk : KeepsDims P) {k : Nat} (hP : OneParam P.plusEq k)
    {fuel : Nat} {mi : Int} (hmi : budget o mi ≤ 65536) {w : W} {s : GNState ℝ R} {x : X} {st : LoopSt ℝ R W (GNState ℝ R) X (DVec ℝ) (DMat ℝ)}
    (hx : P.dynDims x = n) (hs : SizeOk P s) (hr : optimizeAcc (gnEnv so L P) o fuel mi w s x = .ok st) :
    ∃ T U p, Wasted (gnEnv so L P) st T U p :=
  C90_gn_stuck hd hk (fun a => by simp) (fun x d => C87_undo (sol := gnSolver so L P) (fo := false) hP x d) hmi hx hs hr

/-- **C90 (violated by gradient descent)**, for vectors, rotations and poses in exact arithmetic -/
theorem C90_gd_stuck_real (hd : Deterministic P n) (hk : KeepsDims P) {k : Nat} (hP : OneParam P.plusEq k)
    {fuel : Nat} {mi : Int} (hmi : budget o mi ≤ 65536) {w : W} {s : GNState ℝ R} {x : X} {st : LoopSt ℝ R W (GNState ℝ R) X (DVec ℝ) (DMat ℝ)}
    (hx : P.dynDims x = n) (hs : SizeOk P s) (hr : optimizeAcc (gdEnv so P) o fuel mi w s x = .ok st) :
    ∃ T U p, Wasted (gdEnv so P) st T U p :=
  C90_gd_stuck hd hk (fun a => by simp) (fun x d => C87_undo (sol := gdSolver so P) (fo := true) hP x d) hmi hx hs hr

end

/-! ### A run that is stuck -/

/-- the number a step of size one stands for -/
def DVec.rat (d : DVec D) : ℚ := match d.val with
  | .fin q _ => q
  | _ => 0

/-- least squares problem with the single residual `x^2 - 1`, a rational parameter -/
def sqOne : Problem D D Nat ℚ where
  acc :=
    { full := fun w x _ g H =>
        (({ cost := .mk ((x ^ 2 - 1) ^ 2), num := 1, inlier := ofInt 1 }, fun i => add (g i) (.mk (2 * x * (x ^ 2 - 1))),
          fun i j => add (H i j) (.mk (4 * x ^ 2))), w + 1)
      eval := fun w x => ({ cost := .mk ((x ^ 2 - 1) ^ 2), num := 1, inlier := ofInt 1 }, w) }
  dims := some 1
  dynDims := fun _ => 1
  plusEq := fun x d => x + d.rat
  clock := fun w => (ofInt 1, w)
  alloc := fun w _ => (some (fun _ => ofInt 7, fun _ _ => ofInt 7), w)
  ratio1 := ofInt 1

def gnOne : GNState D D := ⟨1, fun _ => ofInt 0, fun _ _ => ofInt 0, { cost := ofInt 0, num := 0, inlier := ofInt 1 }⟩

theorem rat_neg (d : DVec D) : DVec.rat ⟨d.n, negVec d.v⟩ = -d.rat := by
  obtain ⟨n, v⟩ := d
  unfold DVec.rat DVec.val negVec
  by_cases h : 0 < n
  · simp only [h, dif_pos]
    cases v ⟨0, h⟩ <;> simp [FloatOps.neg, Fl.neg]
  · simp only [h, dif_neg, not_false_eq_true]
    rw [Fl.ofInt_zero]
    simp

theorem lt_sub_self (a : D) : lt (sub a a) (ofInt 0) = false := by
  rw [Fl.ofInt_zero]
  cases a <;> simp [FloatOps.sub, FloatOps.lt, Fl.sub, Fl.lt, Fl.mk, Fl.ofGrid, Fmt.exact.rnd_zero, Fmt.exact.max_pos.le]

/-- the hypotheses of `C90_gn_stuck` and `C90_gd_stuck` hold for `sqOne` -/
example : Deterministic sqOne 1 ∧ KeepsDims sqOne ∧ (∀ x (d : DVec D), sqOne.plusEq (sqOne.plusEq x d) ⟨d.n, negVec d.v⟩ = x) ∧
    SizeOk sqOne gnOne ∧ budget (W := Nat) (opts1 6) (-1) ≤ 65536 :=
  ⟨fun _ _ _ => rfl, fun _ _ => rfl, fun x d => by show x + d.rat + DVec.rat ⟨d.n, negVec d.v⟩ = x; rw [rat_neg]; ring,
    fun d hd => Option.some.inj hd, by decide⟩

/-- from `1/4` the step of Gauss-Newton, `15/8`, leads to `17/8`, where the cost is larger: all iterations after the first one are rejected; six more
iterations change nothing -/
example : ∃ st, optimizeAcc (gnEnv sopts1 lin1 sqOne) (opts1 6) 1 (-1) 0 gnOne (1 / 4) = .ok st ∧
    (st.out.successes == [true, false, false, false, false, false, false] && st.trace.map (·.x) == [1 / 4, 17 / 8, 1 / 4, 17 / 8, 1 / 4, 17 / 8, 1 / 4] &&
      st.out.finalCost.cost == .mk (225 / 256) && st.out.stop == .kMaxIters) = true :=
  Res.exists_of_holds (by decide +kernel)

/-- the same for gradient descent from `2` -/
example : ∃ st, optimizeAcc (gdEnv sopts1 sqOne) (opts1 4) 1 (-1) 0 gnOne 2 = .ok st ∧
    (st.out.successes == [true, false, false, false, false] && st.trace.map (·.x) == [2, -10, 2, -10, 2] && st.out.finalCost.cost == .mk 9) = true :=
  Res.exists_of_holds (by decide +kernel)

/-- the damping of Levenberg-Marquardt grows with every rejected step: from `1/4` it finds a better point and goes on -/
example : ∃ st, optimizeAcc (lmEnv sopts1 lin1 sqOne) (opts1 8) 1 (-1) 0 (lmReset sopts1 ⟨gnOne, ofInt 0, ofInt 0, ofInt 0, true⟩) (1 / 4) = .ok st ∧
    (st.out.successes == [true, false, false, false, false, false, false, true, true] && lt st.out.finalCost.cost (.mk (1 / 3))) = true :=
  Res.exists_of_holds (by decide +kernel)

end Verif
