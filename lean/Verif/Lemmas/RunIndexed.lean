import Verif.Props.Prior
/-!
# Runs of a solver that delivers, counted
-/

set_option linter.unusedSectionVars false

namespace Verif
open FloatOps

section
variable {F R W S X V M : Type} [FloatOps F] {E : Env F R W S X V M} {o : Options F W V}

/-- `run_succeeds` with what is known of the solver depending on the number of iterations so far. -/
theorem run_succeeds_idx {Ok : Nat → S → Prop} {Bad : X → Prop} {Row : X → V → Prop} {k : Int} (hk2 : k ≤ 65536)
    (hdel : ∀ (j : Nat) w s x, (j : Int) < k → Ok j s → ¬Bad x → ∃ s2 dx, Delivers E w s x s2 dx ∧ Row x dx ∧
      ∀ s3 b, ((∃ q, E.sol.goodStep s2 q = .ok s3) ∨ E.sol.badStep s2 = .ok s3 ∨ (s3 = s2 ∧ j = 0)) → Ok (j + 1) (E.sol.rebuild s3 b))
    {fuel : Nat} {mi : Int} (hk : loopBound o mi = some k) {w : W} {s : S} {x : X} {st : LoopSt F R W S X V M} (hs : Ok 0 s)
    (hr : optimizeAcc E o (fuel + 1) mi w s x = .ok st) :
    (∃ t ∈ st.trace, Bad t.x) ∨ (0 ≤ st.out.stop.code ∧ ∀ t ∈ st.trace, ∀ d, t.dx = some d → Row t.x d) := by
  obtain ⟨m, st0, hm, hj, -, hlen, hst⟩ := run_inv
    (I := fun st => st.out.numIters = st.trace.length % 65536 ∧ (k ≤ st.trace.length ∨ (∃ t ∈ st.trace, Bad t.x) ∨
      (Ok st.trace.length st.s ∧ st.out.numConsec ≤ maxTries o ∧ ∀ t ∈ st.trace, ∀ d, t.dx = some d → Row t.x d)))
    (J := fun st => k < st.trace.length ∨ (∃ t ∈ st.trace, Bad t.x) ∨
      (0 ≤ st.out.stop.code ∧ ∀ t ∈ st.trace, ∀ d, t.dx = some d → Row t.x d))
    (fun last st st' hno hI hb => by
      obtain ⟨hni, h1⟩ := hI
      have hni' := numIters_inv hb hni
      obtain ⟨succ, mdx, w1, s1, out1, ms, hstep, hbs⟩ := body_spec' hb
      have hlen' : st'.trace.length = st.trace.length + 1 := by rw [hbs.trace]; simp
      have hpast : (∃ t ∈ st.trace, Bad t.x) → ∃ t ∈ st'.trace, Bad t.x := by
        rintro ⟨t, ht, h⟩
        exact ⟨t, by rw [hbs.trace]; exact List.mem_append_left _ ht, h⟩
      rcases h1 with h1 | h1 | ⟨hok, hc, hrow⟩
      · exact ⟨fun _ => ⟨hni', Or.inl (by omega)⟩, Or.inl (by omega)⟩
      · exact ⟨fun _ => ⟨hni', Or.inr (Or.inl (hpast h1))⟩, Or.inr (Or.inl (hpast h1))⟩
      by_cases hbad : Bad st.x
      · have : ∃ t ∈ st'.trace, Bad t.x := by
          rw [hbs.trace]
          exact ⟨_, List.mem_append_right _ (List.mem_singleton.2 rfl), hbad⟩
        exact ⟨fun _ => ⟨hni', Or.inr (Or.inl this)⟩, Or.inr (Or.inl this)⟩
      by_cases hlate : k ≤ st.trace.length
      · exact ⟨fun _ => ⟨hni', Or.inl (by omega)⟩, Or.inl (by omega)⟩
      obtain ⟨s2, dx, hd, hrw, hkeep⟩ := hdel st.trace.length st.w st.s st.x (by omega) hok hbad
      obtain ⟨succ', mdx', w', s3, out', e, -, hmdx, h3, -, -, -, h6, -, h8, -⟩ := step_works (o := o) (fuel := fuel) hd hc
      rw [e] at hstep
      injection hstep with hstep
      simp only [Prod.mk.injEq] at hstep
      obtain ⟨⟨rfl, rfl⟩, rfl, rfl, rfl⟩ := hstep
      have hrow' : ∀ t ∈ st'.trace, ∀ d, t.dx = some d → Row t.x d := by
        intro t ht d hd'
        rw [hbs.trace] at ht
        rcases List.mem_append.1 ht with ht | ht
        · exact hrow t ht d hd'
        · rw [List.mem_singleton] at ht
          subst ht
          rcases hmdx with h | ⟨h, -⟩
          · rw [h] at hd'
            injection hd' with hd'
            rw [← hd']; exact hrw
          · rw [h] at hd'; cases hd'
      constructor
      · intro hn
        have hn' : out'.stop = .kNone := timeStop_none (by rw [hbs.out] at hn; exact hn)
        refine ⟨hni', Or.inr (Or.inr ⟨?_, ?_, hrow'⟩)⟩
        · obtain ⟨b, hb⟩ := hbs.solver
          rw [hb, hlen']
          refine hkeep s3 b ?_
          split at h3
          · rcases h3 with h3 | h3
            · exact Or.inl h3
            · exact Or.inr (Or.inl h3)
          · exact Or.inr (Or.inr ⟨h3, by omega⟩)
        · have := h6 hn'
          rw [hbs.out]; exact this
      · refine Or.inr (Or.inr ⟨?_, hrow'⟩)
        have := h8 hno
        rw [hbs.out]
        show 0 ≤ (timeStop o _ out'.stop).code
        unfold timeStop
        split
        · simp [StopReason.code]
        · exact this)
    (show _ from ⟨rfl, Or.inr (Or.inr ⟨hs, Nat.zero_le _, by intro t ht; cases ht⟩)⟩)
    (show _ from Or.inr (Or.inr ⟨le_refl _, by intro t ht; cases ht⟩)) hr
  rw [hk] at hm
  injection hm with hm
  subst hm
  rw [hst]
  rcases hj with hj | hj | hj
  · have := hlen.1
    omega
  · exact Or.inl hj
  · right
    refine ⟨?_, hj.2⟩
    show 0 ≤ (if st0.out.stop = .kNone ∧ (st0.out.numIters : Int) ≥ k then StopReason.kMaxIters else st0.out.stop).code
    split
    · simp [StopReason.code]
    · exact hj.1

end
end Verif
